import Verif.Model.Front
/-
C142, C143: who sees the metrics, and how much of a request is read.
-/
namespace Blnk.Front

open Blnk.Errs (Text statusForCode)

theorem same_iff (a b : Text) : same a b = true ↔ a = b := by
  unfold same
  rw [Bool.and_eq_true, beq_iff_eq, beq_iff_eq]
  exact ⟨fun h => h.2, fun h => ⟨by rw [h], h⟩⟩

theorem prefix_drop {auth token : Text} (hp : (t! "Bearer ").isPrefixOf auth = true) (h : auth.drop 7 = token) : auth = t! "Bearer " ++ token := by
  rw [List.isPrefixOf_iff_prefix] at hp
  obtain ⟨s, rfl⟩ := hp
  rw [← h]; rfl

/-- **C142.** Metrics are shown to a request exactly if it carries the token, or if no token is configured
and secure mode is off. -/
theorem c142_shown (secure : Bool) (token auth : Text) :
    metricsAuth secure token auth = .pass ↔ (token ≠ [] ∧ auth = t! "Bearer " ++ token) ∨ (token = [] ∧ secure = false) := by
  unfold metricsAuth
  by_cases ht : token = []
  · cases secure <;> simp [ht]
  · rw [if_neg (by simp [ht]), if_neg ht]
    by_cases ha : auth = []
    · rw [if_pos ha, ha]
      simp [ht]
    · rw [if_neg ha]
      cases hp : (t! "Bearer ").isPrefixOf auth
      · rw [if_pos rfl]
        constructor
        · intro h; cases h
        · rintro (⟨_, h⟩ | ⟨h, _⟩)
          · rw [h] at hp
            have : (t! "Bearer ").isPrefixOf (t! "Bearer " ++ token) = true := by rw [List.isPrefixOf_iff_prefix]; exact ⟨token, rfl⟩
            rw [this] at hp; cases hp
          · exact absurd h ht
      · rw [if_neg (by decide)]
        cases hs : same (auth.drop 7) token
        · rw [if_pos rfl]
          constructor
          · intro h; cases h
          · rintro (⟨_, h⟩ | ⟨h, _⟩)
            · have : same (auth.drop 7) token = true := (same_iff _ _).2 (by rw [h]; rfl)
              rw [this] at hs; cases hs
            · exact absurd h ht
        · rw [if_neg (by decide)]
          exact ⟨fun _ => .inl ⟨ht, prefix_drop hp ((same_iff _ _).1 hs)⟩, fun _ => rfl⟩

/-- The metrics and the dashboard of the workers are guarded like those of the server, refusals included. -/
theorem c142_workers (secure : Bool) (token auth : Text) : serve (makeHandler secure token) auth = metricsAuth secure token auth := by
  unfold makeHandler metricsAuth
  by_cases ht : token = []
  · cases secure <;> simp [ht, serve]
  · rw [if_neg (by simp [ht]), if_neg ht, if_neg (by simp [ht]), if_neg ht]
    rfl

/-- Whoever is refused is told 401 or 403. -/
theorem c142_refused (secure : Bool) (token auth : Text) (code : String) (h : metricsAuth secure token auth = .refuse code) :
    statusForCode code = 401 ∨ statusForCode code = 403 := by
  unfold metricsAuth at h
  repeat' split at h
  all_goals first
    | (cases h; decide +kernel)
    | cases h

example : metricsAuth true (t! "s3cret") (t! "Bearer s3cret") = .pass ∧ metricsAuth true (t! "s3cret") (t! "Bearer s3cre") = .refuse "AUTH_INVALID_BEARER_TOKEN" ∧
    metricsAuth true (t! "s3cret") (t! "bearer s3cret") = .refuse "AUTH_METRICS_TOKEN_REQUIRED" ∧ metricsAuth true [] (t! "Bearer ") = .refuse "AUTH_METRICS_DISABLED" := by
  decide +kernel

/-! ### C143: a request is read only up to the limit -/

/-- **C143 in full**: of an upload no more is read than the limit of uploads, of anything else no more than
the limit of requests. -/
def C143Full : Prop :=
  ∀ (l : Limits) (r : Req), 0 < l.request → 0 < l.upload →
    (taken l r : Int) ≤ if r.isUpload then max l.request l.upload else l.request

/-- **C143 fails for any route**: a request that calls itself a form is read whole, however long it is. -/
theorem c143_form_fails (l : Limits) (r : Req) (hc : (t! "multipart/form-data").isPrefixOf r.contentType = true) (hu : r.isUpload = false) :
    taken l r = r.size := by
  have h1 : requestLimit l r = none := by
    unfold requestLimit
    rw [hc]; simp
  have h2 : uploadLimit l r = none := by
    unfold uploadLimit
    rw [hu]; simp
  unfold taken injected handled
  rw [h1, h2]
  simp only [capped]
  split <;> omega

/-- **C143 fails for uploads with an API key**: the key is written into the body, and for that the whole
upload is read into memory before the handler sets its limit. -/
theorem c143_upload_fails (l : Limits) (r : Req) (hc : (t! "multipart/form-data").isPrefixOf r.contentType = true) (hp : r.post = true)
    (hk : r.caller = .key) : taken l r = r.size := by
  have h1 : requestLimit l r = none := by
    unfold requestLimit
    rw [hc]; simp
  have h3 : handled l r ≤ r.size := by
    unfold handled capped
    rw [h1]
    split <;> simp <;> omega
  unfold taken injected
  rw [if_pos ⟨hk, hp⟩, h1]
  simp only [capped]
  omega

theorem c143_full_fails : ¬ C143Full := by
  intro h
  have := h ⟨10, 10⟩ ⟨true, t! "multipart/form-data; boundary=x", false, .trusted, 1000⟩ (by decide) (by decide)
  rw [c143_form_fails _ _ (by decide) rfl] at this
  exact absurd this (by decide)

/-- **C143, what holds**: of a request that is not a form no more is read than the limit of requests, and of
a form sent to the upload route without an API key no more than the limit of uploads. -/
theorem c143_partial (l : Limits) (r : Req) (h1 : 0 < l.request) (h2 : 0 < l.upload) :
    ((t! "multipart/form-data").isPrefixOf r.contentType = false → (taken l r : Int) ≤ l.request) ∧
    (r.isUpload = true → r.caller = .trusted → (taken l r : Int) ≤ l.upload) := by
  constructor
  · intro hc
    have e : requestLimit l r = some l.request.toNat := by
      unfold requestLimit
      rw [if_neg (by omega), hc]; simp
    have hh : handled l r ≤ l.request.toNat := by
      unfold handled capped
      rw [e]
      split <;> simp <;> omega
    have hi : injected l r ≤ l.request.toNat := by
      unfold injected capped
      rw [e]
      split <;> simp <;> omega
    unfold taken
    omega
  · intro hu hk
    have hi : injected l r = 0 := by
      unfold injected
      rw [hk]; simp
    have hh : handled l r ≤ l.upload.toNat := by
      unfold handled uploadLimit
      rw [if_pos ⟨hu, h2⟩]
      exact Nat.min_le_left _ _
    unfold taken
    omega

example : taken ⟨1000, 5000⟩ ⟨true, t! "application/json", false, .key, 1000000⟩ = 1000 ∧
    taken ⟨1000, 5000⟩ ⟨true, t! "multipart/form-data; boundary=x", true, .trusted, 1000000⟩ = 5000 := by decide +kernel

end Blnk.Front
