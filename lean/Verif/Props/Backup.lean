import Verif.Model.Backup
/-
C208: a backup that was answered with success is kept.
-/
namespace Blnk.Backup

/-! ### Specification -/

/-- A reading a clock can show. -/
def Valid (r : Reading) : Prop :=
  r.year < 10000 ∧ r.month ≤ 12 ∧ r.day ≤ 31 ∧ r.hour < 24 ∧ r.min < 60 ∧ r.sec < 60

def SameDate (r q : Reading) : Prop := r.year = q.year ∧ r.month = q.month ∧ r.day = q.day

def SameTime (r q : Reading) : Prop := r.hour = q.hour ∧ r.min = q.min ∧ r.sec = q.sec

/-- The requests follow each other, at least a second apart. -/
def InTurn (js : List Job) : Prop :=
  (∀ j ∈ js, j.atDir ≤ j.atName) ∧ js.Pairwise (fun a b => a.atName < b.atDir)

/-- Somewhere, where it was asked to be, there is the whole dump. -/
def Kept (s : Store) (j : Job) : Prop :=
  if j.s3 then ∃ k, s.bucket k = some (.whole j.dump) else ∃ p, s.disk p = some (.whole j.dump)

/-- C208: when backups follow each other, what a successful one dumped is still there at the end, on
disk or in the bucket as asked. -/
def C208Full : Prop :=
  ∀ (c : Cfg) (clock : Nat → Reading), '/' ∉ c.db → (∀ t, Valid (clock t)) →
  ∀ (pre : List Job) (j : Job) (post : List Job), InTurn (pre ++ j :: post) →
    (serve c clock j (serveAll c clock pre {})).2 = true →
    Kept (serveAll c clock (pre ++ j :: post) {}) j

/-! ### Names -/

theorem digit_mod (n : Nat) : digit n = digit (n % 10) := by simp [digit]

theorem digit_inj {a b : Nat} (h : digit a = digit b) : a % 10 = b % 10 := by
  rw [digit_mod a, digit_mod b] at h
  have key : ∀ x y : Fin 10, digit x.1 = digit y.1 → x = y := by decide
  have := key ⟨a % 10, Nat.mod_lt _ (by decide)⟩ ⟨b % 10, Nat.mod_lt _ (by decide)⟩ h
  exact Fin.mk.inj this

theorem two_inj {a b : Nat} (ha : a < 100) (hb : b < 100) (h : two a = two b) : a = b := by
  unfold two at h
  injection h with h1 h2
  injection h2 with h2 _
  have h1 := digit_inj h1
  have h2 := digit_inj h2
  omega

theorem two_length (n : Nat) : (two n).length = 2 := rfl

theorem four_inj {a b : Nat} (ha : a < 10000) (hb : b < 10000) (h : four a = four b) : a = b := by
  obtain ⟨h1, h2⟩ := List.append_inj h rfl
  have h1 := two_inj (by omega) (by omega) h1
  unfold two at h2
  injection h2 with h2 h3
  injection h3 with h3 _
  have h2 := digit_inj h2
  have h3 := digit_inj h3
  omega

theorem dateText_inj {r q : Reading} (hr : Valid r) (hq : Valid q) :
    dateText r = dateText q ↔ SameDate r q := by
  obtain ⟨r1, r2, r3, _⟩ := hr
  obtain ⟨q1, q2, q3, _⟩ := hq
  constructor
  · intro h
    obtain ⟨h1, h2⟩ := List.append_inj h rfl
    injection h2 with _ h2
    obtain ⟨h2, h3⟩ := List.append_inj h2 rfl
    injection h3 with _ h3
    exact ⟨four_inj r1 q1 h1, two_inj (by omega) (by omega) h2, two_inj (by omega) (by omega) h3⟩
  · rintro ⟨h1, h2, h3⟩
    unfold dateText
    rw [h1, h2, h3]

theorem timeText_inj {r q : Reading} (hr : Valid r) (hq : Valid q) :
    timeText r = timeText q ↔ SameTime r q := by
  obtain ⟨_, _, _, r1, r2, r3⟩ := hr
  obtain ⟨_, _, _, q1, q2, q3⟩ := hq
  constructor
  · intro h
    obtain ⟨h1, h3⟩ := List.append_inj h rfl
    obtain ⟨h1, h2⟩ := List.append_inj h1 rfl
    exact ⟨two_inj (by omega) (by omega) h1, two_inj (by omega) (by omega) h2,
      two_inj (by omega) (by omega) h3⟩
  · rintro ⟨h1, h2, h3⟩
    unfold timeText
    rw [h1, h2, h3]

theorem fileName_inj {c : Cfg} {r q : Reading} (hr : Valid r) (hq : Valid q) :
    fileName c r = fileName c q ↔ SameTime r q := by
  rw [← timeText_inj hr hq]
  constructor
  · intro h
    have h := List.append_cancel_left h
    injection h with _ h
    exact List.append_cancel_right h
  · intro h
    unfold fileName
    rw [h]

theorem path_inj {c : Cfg} {r q r' q' : Reading} (hr : Valid r) (hq : Valid q) (hr' : Valid r')
    (hq' : Valid q') : path c r q = path c r' q' ↔ SameDate r r' ∧ SameTime q q' := by
  rw [← dateText_inj hr hr', ← fileName_inj (c := c) hq hq']
  constructor
  · intro h
    have h := List.append_cancel_left h
    injection h with _ h
    obtain ⟨h1, h2⟩ := List.append_inj h rfl
    injection h2 with _ h2
    exact ⟨h1, h2⟩
  · rintro ⟨h1, h2⟩
    unfold path
    rw [h1, h2]

theorem base_plain {s : Str} (h : '/' ∉ s) : base s = s := by
  cases s with
  | nil => rfl
  | cons ch s =>
    simp only [List.mem_cons, not_or] at h
    unfold base
    rw [if_neg h.2, if_neg (fun e => h.1 e.symm)]

theorem base_slash (pre : Str) {s : Str} (h : '/' ∉ s) : base (pre ++ '/' :: s) = s := by
  induction pre with
  | nil =>
    show base ('/' :: s) = s
    unfold base
    rw [if_neg h, if_pos rfl]
  | cons ch pre ih =>
    show base (ch :: (pre ++ '/' :: s)) = s
    unfold base
    rw [if_pos (by simp)]
    exact ih

theorem digit_ne_slash (n : Nat) : '/' ≠ digit n := by
  rw [digit_mod]
  have key : ∀ x : Fin 10, '/' ≠ digit x.1 := by decide
  exact key ⟨n % 10, Nat.mod_lt _ (by decide)⟩

theorem fileName_plain {c : Cfg} (h : '/' ∉ c.db) (r : Reading) : '/' ∉ fileName c r := by
  unfold fileName timeText two
  simp [h, digit_ne_slash]

/-- The object is named after the database and the time of day alone. -/
theorem base_path {c : Cfg} (h : '/' ∉ c.db) (r q : Reading) : base (path c r q) = fileName c q := by
  have : path c r q = (c.dir ++ '/' :: dateText r) ++ '/' :: fileName c q := by simp [path]
  rw [this]
  exact base_slash _ (fileName_plain h q)

/-! ### What a request writes -/

theorem put_same (f : Str → Option File) (k : Str) (v : File) : put f k v k = some v := by simp [put]

theorem put_other (f : Str → Option File) {k x : Str} (v : File) (h : x ≠ k) : put f k v x = f x := by
  simp [put, h]

/-- A request writes one file, and an object of the same name when it is to go to the bucket. -/
theorem serve_disk (c : Cfg) (clock : Nat → Reading) (j : Job) (s : Store) :
    (serve c clock j s).1.disk =
      put s.disk (j.path c clock) (if j.dumped then .whole j.dump else .broken) := by
  unfold serve toS3 toDisk
  cases hd : j.dumped <;> cases hs : j.s3 <;> cases hu : j.uploaded <;> simp [put]

theorem serve_bucket (c : Cfg) (clock : Nat → Reading) (j : Job) (s : Store) :
    (serve c clock j s).1.bucket =
      if j.s3 && j.dumped && j.uploaded then put s.bucket (base (j.path c clock)) (.whole j.dump)
      else s.bucket := by
  unfold serve toS3 toDisk
  cases hd : j.dumped <;> cases hs : j.s3 <;> cases hu : j.uploaded <;> simp [put]

theorem serve_ok (c : Cfg) (clock : Nat → Reading) (j : Job) (s : Store) :
    (serve c clock j s).2 = (j.dumped && (!j.s3 || j.uploaded)) := by
  unfold serve toS3 toDisk
  cases hd : j.dumped <;> cases hs : j.s3 <;> cases hu : j.uploaded <;> simp [put]

theorem serveAll_append (c : Cfg) (clock : Nat → Reading) (a b : List Job) (s : Store) :
    serveAll c clock (a ++ b) s = serveAll c clock b (serveAll c clock a s) := by
  induction a generalizing s with
  | nil => rfl
  | cons j a ih => exact ih _

theorem disk_stays (c : Cfg) (clock : Nat → Reading) (p : Str) (js : List Job)
    (h : ∀ j ∈ js, j.path c clock ≠ p) (s : Store) :
    (serveAll c clock js s).disk p = s.disk p := by
  induction js generalizing s with
  | nil => rfl
  | cons j js ih =>
    show (serveAll c clock js (serve c clock j s).1).disk p = _
    rw [ih (fun j' hj' => h j' (List.mem_cons_of_mem _ hj')), serve_disk,
      put_other _ _ (fun e => h j (by simp) e.symm)]

theorem bucket_stays (c : Cfg) (clock : Nat → Reading) (k : Str) (js : List Job)
    (h : ∀ j ∈ js, j.s3 = true → j.dumped = true → j.uploaded = true → base (j.path c clock) ≠ k)
    (s : Store) : (serveAll c clock js s).bucket k = s.bucket k := by
  induction js generalizing s with
  | nil => rfl
  | cons j js ih =>
    show (serveAll c clock js (serve c clock j s).1).bucket k = _
    rw [ih (fun j' hj' => h j' (List.mem_cons_of_mem _ hj')), serve_bucket]
    split
    · rename_i hc
      simp only [Bool.and_eq_true] at hc
      exact put_other _ _ (fun e => h j (by simp) hc.1.1 hc.1.2 hc.2 e.symm)
    · rfl

/-! ### C208 -/

/-- C208, the part that holds on disk: a successful backup is still in the file whose path was
answered, when no later request has both its date and its time of day. -/
theorem c208_disk_partial {c : Cfg} {clock : Nat → Reading} (hv : ∀ t, Valid (clock t))
    (pre : List Job) (j : Job) (post : List Job) (s : Store) (hd : j.dumped = true)
    (hp : ∀ j' ∈ post, ¬ (SameDate (clock j'.atDir) (clock j.atDir) ∧
      SameTime (clock j'.atName) (clock j.atName))) :
    (serveAll c clock (pre ++ j :: post) s).disk (j.path c clock) = some (.whole j.dump) := by
  rw [serveAll_append]
  show (serveAll c clock post (serve c clock j _).1).disk _ = _
  rw [disk_stays, serve_disk, put_same, if_pos hd]
  intro j' hj' he
  exact hp j' hj' ((path_inj (hv _) (hv _) (hv _) (hv _)).1 he)

/-- C208, the part that holds in the bucket: a successful backup is still there when no later upload
has its time of day, whatever the date. -/
theorem c208_bucket_partial {c : Cfg} {clock : Nat → Reading} (hc : '/' ∉ c.db)
    (hv : ∀ t, Valid (clock t)) (pre : List Job) (j : Job) (post : List Job) (s : Store)
    (h3 : j.s3 = true) (hok : (serve c clock j (serveAll c clock pre s)).2 = true)
    (hp : ∀ j' ∈ post, j'.s3 = true → j'.dumped = true → j'.uploaded = true →
      ¬ SameTime (clock j'.atName) (clock j.atName)) :
    (serveAll c clock (pre ++ j :: post) s).bucket (fileName c (clock j.atName)) =
      some (.whole j.dump) := by
  rw [serve_ok, h3] at hok
  simp only [Bool.not_true, Bool.false_or, Bool.and_eq_true] at hok
  rw [serveAll_append]
  show (serveAll c clock post (serve c clock j _).1).bucket _ = _
  rw [bucket_stays, serve_bucket, h3, hok.1, hok.2]
  · rw [if_pos (show (true && true && true) = true from rfl), show base (j.path c clock) = fileName c (clock j.atName) from base_path hc _ _]
    exact put_same _ _ _
  · intro j' hj' h1 h2 h4 he
    rw [show base (j'.path c clock) = fileName c (clock j'.atName) from base_path hc _ _] at he
    exact hp j' hj' h1 h2 h4 ((fileName_inj (hv _) (hv _)).1 he)

/-- And it is gone as soon as one does: two uploads at the same time of day leave one object. -/
theorem c208_bucket_lost {c : Cfg} {clock : Nat → Reading} (hc : '/' ∉ c.db)
    (hv : ∀ t, Valid (clock t)) (j j' : Job) (s : Store)
    (h' : j'.s3 = true ∧ j'.dumped = true ∧ j'.uploaded = true)
    (ht : SameTime (clock j'.atName) (clock j.atName)) :
    (serve c clock j' s).1.bucket (fileName c (clock j.atName)) = some (.whole j'.dump) := by
  rw [serve_bucket, h'.1, h'.2.1, h'.2.2, if_pos (show (true && true && true) = true from rfl),
    show base (j'.path c clock) = fileName c (clock j'.atName) from base_path hc _ _,
    (fileName_inj (c := c) (hv _) (hv _)).2 ht]
  exact put_same _ _ _

/-- When each request reads the same date twice and no two read the clock alike, all successful backups
are on disk. -/
theorem c208_disk_days {c : Cfg} {clock : Nat → Reading} (hv : ∀ t, Valid (clock t))
    (js : List Job) (s : Store)
    (hday : ∀ j ∈ js, SameDate (clock j.atDir) (clock j.atName))
    (hdiff : js.Pairwise (fun a b => clock a.atName ≠ clock b.atName)) :
    ∀ j ∈ js, j.dumped = true →
      (serveAll c clock js s).disk (j.path c clock) = some (.whole j.dump) := by
  intro j hj hd
  obtain ⟨pre, post, rfl⟩ := List.append_of_mem hj
  refine c208_disk_partial hv pre j post s hd ?_
  intro j' hj' ⟨⟨a1, a2, a3⟩, t1, t2, t3⟩
  have hne := (List.pairwise_cons.1 (List.pairwise_append.1 hdiff).2.1).1 j' hj'
  obtain ⟨b1, b2, b3⟩ := hday j' (by simp [hj'])
  obtain ⟨d1, d2, d3⟩ := hday j (by simp)
  apply hne
  cases hr : clock j.atName
  cases hq : clock j'.atName
  rw [hr, hq] at t1 t2 t3
  rw [hq] at b1 b2 b3
  rw [hr] at d1 d2 d3
  simp only [Reading.mk.injEq]
  dsimp only at *
  omega

/-- A failed dump does not leave an earlier backup of the same name: the file is broken. -/
theorem c208_broken {c : Cfg} {clock : Nat → Reading} (hv : ∀ t, Valid (clock t)) (j j' : Job)
    (s : Store) (hd : j'.dumped = false)
    (hs : SameDate (clock j'.atDir) (clock j.atDir) ∧ SameTime (clock j'.atName) (clock j.atName)) :
    (serve c clock j' s).1.disk (j.path c clock) = some .broken := by
  rw [serve_disk, hd, show j.path c clock = j'.path c clock from
    ((path_inj (hv _) (hv _) (hv _) (hv _)).2 hs).symm]
  exact put_same _ _ _

/-- A failed upload leaves the bucket as it was, and the backup on disk. -/
theorem c208_upload_failed (c : Cfg) (clock : Nat → Reading) (j : Job) (s : Store)
    (h3 : j.s3 = true) (hd : j.dumped = true) (hu : j.uploaded = false) :
    (serve c clock j s).2 = false ∧ (serve c clock j s).1.bucket = s.bucket ∧
    (serve c clock j s).1.disk (j.path c clock) = some (.whole j.dump) := by
  refine ⟨by rw [serve_ok, h3, hd, hu]; rfl, by rw [serve_bucket, h3, hd, hu]; rfl, ?_⟩
  rw [serve_disk, hd]
  exact put_same _ _ _

/-! ### Cases -/

/-- The clock of a January. -/
def january (t : Nat) : Reading where
  year := 2025
  month := 1
  day := 1 + t / 86400 % 31
  hour := t % 86400 / 3600
  min := t % 3600 / 60
  sec := t % 60

theorem january_valid (t : Nat) : Valid (january t) := by
  unfold Valid january
  dsimp only
  omega

def blnk : Cfg := ⟨t! "/backups", t! "blnk"⟩

example : Job.path blnk january ⟨7200, 7201, 5, true, false, true⟩ =
    t! "/backups/2025-01-01/blnk-020001.sql" := by decide +kernel

/-- Uploads at two in the morning of the first and at three of the second. -/
example : (serveAll blnk january [⟨7200, 7200, 5, true, true, true⟩, ⟨97200, 97200, 6, true, true, true⟩] {}).bucket
    (t! "blnk-020000.sql") = some (.whole 5) := by decide +kernel

/-- A daily upload at two in the morning: yesterday's backup is gone. -/
def daily : List Job := [⟨7200, 7200, 5, true, true, true⟩, ⟨93600, 93600, 6, true, true, true⟩]

theorem daily_bucket (k : Str) : (serveAll blnk january daily {}).bucket k ≠ some (.whole 5) := by
  have h : (serveAll blnk january daily {}).bucket =
      put (put (fun _ => none) (t! "blnk-020000.sql") (.whole 5)) (t! "blnk-020000.sql") (.whole 6) := by
    have e1 : base (Job.path blnk january ⟨7200, 7200, 5, true, true, true⟩) = t! "blnk-020000.sql" := by
      decide +kernel
    have e2 : base (Job.path blnk january ⟨93600, 93600, 6, true, true, true⟩) = t! "blnk-020000.sql" := by
      decide +kernel
    unfold daily
    show (serve blnk january _ (serve blnk january _ _).1).1.bucket = _
    rw [serve_bucket, serve_bucket, e1, e2]
    rfl
  rw [h]
  unfold put
  split
  · simp
  · simp_all

theorem c208_full_fails : ¬ C208Full := by
  intro h
  have := h blnk january (by decide) january_valid [] ⟨7200, 7200, 5, true, true, true⟩
    [⟨93600, 93600, 6, true, true, true⟩] (by simp [InTurn]) (by decide +kernel)
  obtain ⟨k, hk⟩ := this
  exact daily_bucket k hk

/-- On disk: a request just before midnight has its directory chosen on the first and its name on the
second, and takes the place of the backup made at the first midnight. -/
theorem c208_midnight :
    (serveAll blnk january [⟨0, 0, 5, true, false, true⟩] {}).disk (t! "/backups/2025-01-01/blnk-000000.sql")
      = some (.whole 5) ∧
    (serveAll blnk january [⟨0, 0, 5, true, false, true⟩, ⟨86399, 86400, 6, true, false, true⟩] {}).disk
      (t! "/backups/2025-01-01/blnk-000000.sql") = some (.whole 6) := by
  constructor <;> decide +kernel

example : ∃ js : List Job, js.length = 2 ∧ (∀ j ∈ js, SameDate (january j.atDir) (january j.atName)) ∧
    js.Pairwise (fun a b => january a.atName ≠ january b.atName) :=
  ⟨daily, rfl, by simp [daily, SameDate, january], by simp [daily, january]⟩

end Blnk.Backup
