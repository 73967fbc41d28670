import Verif.Model.Telemetry
import Verif.Props.Download
import Mathlib.Data.List.TakeWhile
/-
C217: telemetry goes only where the settings say, the write key only over HTTPS to the host of its DSN,
and an address that says `https` is asked over HTTPS.
-/
namespace Blnk.Tele

open Blnk.Errs (Text)
open Blnk.Csv (trim)

/-! ### Specification -/

/-- `https://<write-key>@<host>/<project-id>`: the project is one part of the path, with any number of
slashes around it. -/
def Names (parse : Text → Option Url) (dsn host key project : Text) : Prop :=
  trim dsn ≠ [] ∧ ∃ u i j, parse (trim dsn) = some u ∧ u.scheme = t! "https" ∧ u.host = host ∧ host ≠ [] ∧
    u.user = some key ∧ key ≠ [] ∧ trim u.path = List.replicate i '/' ++ (project ++ List.replicate j '/') ∧
    project ≠ [] ∧ '/' ∉ project

/-- Hosts have no slash. -/
def HostsPlain (parse : Text → Option Url) : Prop := ∀ r u, parse r = some u → '/' ∉ u.host

/-- The endpoint that is set for a signal: its own or else the general one. Logs have none. -/
def endpointOf (s : Settings) : Signal → Text
  | .traces => if s.otlpTraces = [] then s.otlp else s.otlpTraces
  | .metrics => if s.otlpMetrics = [] then s.otlp else s.otlpMetrics
  | .logs => []

def Clear (st : Stream) : Prop := t! "http://" <+: st.address

/-- The address is read as one over HTTPS with a host. -/
def AsksHTTPS (parse : Text → Option Url) (e : Text) : Prop :=
  e ≠ [] ∧ ∃ u, parse e = some u ∧ u.scheme = t! "https" ∧ u.host ≠ []

/-- C217, the part that fails: nothing is sent in the clear for which an HTTPS address is set. -/
def C217Full : Prop :=
  ∀ (s : Settings) (st : Stream), st ∈ streams goParse s → Clear st → ¬ AsksHTTPS goParse (endpointOf s st.signal)

/-! ### Slashes -/

theorem split_left (s : Text) : ∃ i, s = List.replicate i '/' ++ trimLeft s := by
  induction s with
  | nil => exact ⟨0, rfl⟩
  | cons c s ih =>
    obtain ⟨i, hi⟩ := ih
    by_cases hc : c = '/'
    · refine ⟨i + 1, ?_⟩
      subst hc
      have : trimLeft ('/' :: s) = trimLeft s := by simp [trimLeft]
      rw [this, List.replicate_succ, List.cons_append, ← hi]
    · exact ⟨0, by simp [trimLeft, hc]⟩

theorem split_right (s : Text) : ∃ j, s = trimRight s ++ List.replicate j '/' := by
  obtain ⟨j, hj⟩ := split_left s.reverse
  refine ⟨j, ?_⟩
  have := congrArg List.reverse hj
  simpa [trimRight, trimLeft] using this

theorem left_slashes (i : Nat) (p : Text) : trimLeft (List.replicate i '/' ++ p) = trimLeft p := by
  induction i with
  | zero => rfl
  | succ i ih => rw [List.replicate_succ, List.cons_append]; simpa [trimLeft] using ih

theorem left_plain {p : Text} (q : Text) (h : '/' ∉ p) (hp : p ≠ []) : trimLeft (p ++ q) = p ++ q := by
  cases p with
  | nil => exact absurd rfl hp
  | cons c p =>
    have hc : c ≠ '/' := fun e => h (by simp [e])
    simp [trimLeft, hc]

theorem right_slashes (j : Nat) (p : Text) : trimRight (p ++ List.replicate j '/') = trimRight p := by
  have := left_slashes j p.reverse
  simp only [trimRight, trimLeft] at this ⊢
  rw [List.reverse_append, List.reverse_replicate, this]

theorem right_plain {p : Text} (q : Text) (h : '/' ∉ p) (hp : p ≠ []) : trimRight (q ++ p) = q ++ p := by
  have := left_plain (p := p.reverse) q.reverse (by simpa using h) (by simpa using hp)
  simp only [trimRight, trimLeft] at this ⊢
  rw [List.reverse_append, this]; simp

theorem project_of {i j : Nat} {t p : Text} (ht : t = List.replicate i '/' ++ (p ++ List.replicate j '/')) (h : '/' ∉ p)
    (hp : p ≠ []) : trimRight (trimLeft t) = p := by
  rw [ht, left_slashes, left_plain _ h hp, right_slashes]
  simpa using right_plain (p := p) [] h hp

theorem project_parts (t : Text) : ∃ i j, t = List.replicate i '/' ++ (trimRight (trimLeft t) ++ List.replicate j '/') := by
  obtain ⟨i, hi⟩ := split_left t
  obtain ⟨j, hj⟩ := split_right (trimLeft t)
  exact ⟨i, j, by rw [← hj]; exact hi⟩

/-! ### The configuration -/

theorem remote_trim (s : Settings) : trim (remoteDSN s) = trim s.dsn := by
  unfold remoteDSN
  by_cases h : trim s.dsn = []
  · rw [if_neg (by simpa using h), h]; rfl
  · rw [if_pos h]

theorem config_of {parse : Text → Option Url} {s : Settings} {host key project : Text} (h : Names parse s.dsn host key project) :
    exporterConfig parse (remoteDSN s) =
      some { dsn := trim s.dsn, publicKey := key, projectID := project, endpoint := t! "https://" ++ host } := by
  obtain ⟨h0, u, i, j, hu, hs, hh, hn, hk, hkn, hp, hpn, hps⟩ := h
  have hpr := project_of hp hps hpn
  have hkey : u.user.getD [] = key := by rw [hk]; rfl
  simp only [exporterConfig, fromDSN, parseDSN, remote_trim, Down.trim_trim, if_neg h0, hu]
  rw [if_neg (by simp [hs]), if_neg (by rw [hh]; exact hn), if_neg (by rw [hkey]; exact hkn)]
  simp only [hpr]
  rw [if_neg hpn, if_neg hps]
  simp [hs, hh, hkey]

theorem names_of {parse : Text → Option Url} {s : Settings} {c : Config} (h : exporterConfig parse (remoteDSN s) = some c) :
    ∃ host, Names parse s.dsn host c.publicKey c.projectID ∧ c.endpoint = t! "https://" ++ host := by
  simp only [exporterConfig, fromDSN, parseDSN, remote_trim, Down.trim_trim] at h
  by_cases h0 : trim s.dsn = []
  · simp [h0] at h
  simp only [if_neg h0] at h
  cases hu : parse (trim s.dsn) with
  | none => simp [hu] at h
  | some u =>
    simp only [hu] at h
    by_cases hs : u.scheme ≠ t! "https"
    · simp [hs] at h
    have hs : u.scheme = t! "https" := Classical.not_not.1 hs
    by_cases hh : u.host = []
    · simp [hs, hh] at h
    by_cases hk : u.user.getD [] = []
    · simp [hs, hh, hk] at h
    rw [if_neg (by simp [hs]), if_neg hh, if_neg hk] at h
    by_cases hp : trimRight (trimLeft (trim u.path)) = []
    · simp [hp] at h
    by_cases hq : '/' ∈ trimRight (trimLeft (trim u.path))
    · simp only [if_neg hp, if_pos hq] at h; simp at h
    simp only [if_neg hp, if_neg hq] at h
    injection h with h
    subst h
    obtain ⟨i, j, hij⟩ := project_parts (trim u.path)
    refine ⟨u.host, ⟨h0, u, i, j, hu, hs, rfl, hh, ?_, hk, hij, hp, hq⟩, ?_⟩
    · cases hx : u.user with
      | none => simp [hx] at hk
      | some k => rfl
    · simp [hs]

/-- The exporter of traces, by the endpoint that is set. -/
theorem trace_eq (parse : Text → Option Url) (s : Settings) :
    traceExporter parse s = { signal := .traces, address := (if (endpointOf s Signal.traces) = [] then
        web true (t! "localhost:4318") (t! "/v1/traces")
      else web (parseOTLPEndpoint parse (endpointOf s .traces)).2 (parseOTLPEndpoint parse (endpointOf s .traces)).1 (t! "/v1/traces")) } := by
  unfold traceExporter
  simp only [endpointOf]
  by_cases h : s.otlpTraces = []
  · simp only [if_pos h]
    by_cases he : s.otlp = []
    · simp only [if_pos he]
    · simp only [if_neg he]
  · simp only [if_neg h]

theorem metric_mem {parse : Text → Option Url} {s : Settings} {st : Stream} (h : st ∈ metricExporter parse s) :
    ∃ u, parse (endpointOf s .metrics) = some u ∧ st = { signal := .metrics, address := web true u.host (t! "/v1/metrics") } := by
  unfold metricExporter at h
  by_cases hc : s.otlpMetrics ≠ [] ∨ s.otlp ≠ []
  · rw [if_pos hc] at h
    simp only [endpointOf]
    cases hu : parse (if s.otlpMetrics = [] then s.otlp else s.otlpMetrics) with
    | none => simp [hu] at h
    | some u => simp only [hu, List.mem_singleton] at h; exact ⟨u, rfl, h⟩
  · rw [if_neg hc] at h; simp at h

theorem own_no_auth {parse : Text → Option Url} {s : Settings} {st : Stream}
    (h : st = traceExporter parse s ∨ st ∈ metricExporter parse s) : st.auth = none := by
  rcases h with rfl | h
  · rw [trace_eq]
  · obtain ⟨u, -, rfl⟩ := metric_mem h; rfl

theorem mem_streams {parse : Text → Option Url} {s : Settings} {st : Stream} :
    st ∈ streams parse s ↔ s.observability = true ∧ ((st = traceExporter parse s ∨ st ∈ metricExporter parse s) ∨
      ∃ c, exporterConfig parse (remoteDSN s) = some c ∧ st ∈ monitoring c) := by
  unfold streams
  cases s.observability with
  | false => simp
  | true =>
    simp only [if_true, List.mem_cons, List.mem_append, true_and]
    cases exporterConfig parse (remoteDSN s) with
    | none => simp
    | some c => simp [or_assoc]

/-! ### The theorems -/

/-- Nothing is sent unless it was switched on. -/
theorem c217_off (parse : Text → Option Url) (s : Settings) (h : s.observability = false) : streams parse s = [] := by
  simp [streams, h]

/-- A DSN of the right form: traces, metrics and logs go to its host over HTTPS, with its write key. -/
theorem c217_sent {parse : Text → Option Url} (hp : HostsPlain parse) {s : Settings} {host key project : Text}
    (ho : s.observability = true) (h : Names parse s.dsn host key project) (st : Stream) :
    (st ∈ streams parse s ∧ st.auth ≠ none) ↔
      st.auth = some (t! "Bearer " ++ key) ∧ ((st.signal = .traces ∧ st.address = t! "https://" ++ (host ++ t! "/monitoring/ingest/v1/otlp/traces")) ∨
        (st.signal = .metrics ∧ st.address = t! "https://" ++ (host ++ t! "/monitoring/ingest/v1/otlp/metrics")) ∨
        (st.signal = .logs ∧ st.address = t! "https://" ++ (host ++ t! "/monitoring/ingest/v1/logs"))) := by
  have hc := config_of h
  obtain ⟨-, u, i, j, hu, -, hh, hn, -, hkn, -⟩ := h
  have hpl : '/' ∉ host := hh ▸ hp _ _ hu
  have hr : trimRight (t! "https://" ++ host) = t! "https://" ++ host := right_plain _ hpl hn
  have hm : ∀ d pr, st ∈ monitoring { dsn := d, publicKey := key, projectID := pr, endpoint := t! "https://" ++ host } ↔
      st.auth = some (t! "Bearer " ++ key) ∧ ((st.signal = .traces ∧ st.address = t! "https://" ++ (host ++ t! "/monitoring/ingest/v1/otlp/traces")) ∨
        (st.signal = .metrics ∧ st.address = t! "https://" ++ (host ++ t! "/monitoring/ingest/v1/otlp/metrics")) ∨
        (st.signal = .logs ∧ st.address = t! "https://" ++ (host ++ t! "/monitoring/ingest/v1/logs"))) := by
    intro d pr
    have e1 : trimLeft (t! "traces") = t! "traces" := by decide +kernel
    have e2 : trimLeft (t! "metrics") = t! "metrics" := by decide +kernel
    have e3 : trimLeft (t! "logs") = t! "logs" := by decide +kernel
    obtain ⟨sg, ad, au⟩ := st
    simp only [monitoring, otlpSignalURL, signalURL, header, hr, e1, e2, e3, if_pos hkn, List.mem_cons, List.not_mem_nil, or_false,
      Stream.mk.injEq, List.append_assoc]
    constructor
    · rintro (⟨a, b, c⟩ | ⟨a, b, c⟩ | ⟨a, b, c⟩)
      · exact ⟨c, .inl ⟨a, b⟩⟩
      · exact ⟨c, .inr (.inl ⟨a, b⟩)⟩
      · exact ⟨c, .inr (.inr ⟨a, b⟩)⟩
    · rintro ⟨c, ⟨a, b⟩ | ⟨a, b⟩ | ⟨a, b⟩⟩
      · exact .inl ⟨a, b, c⟩
      · exact .inr (.inl ⟨a, b, c⟩)
      · exact .inr (.inr ⟨a, b, c⟩)
  rw [mem_streams]
  constructor
  · rintro ⟨⟨-, h1 | ⟨c, hc', h1⟩⟩, h2⟩
    · exact absurd (own_no_auth h1) h2
    · rw [hc] at hc'; injection hc' with hc'; subst hc'; exact (hm _ _).1 h1
  · intro h1
    refine ⟨⟨ho, .inr ⟨_, hc, (hm _ _).2 h1⟩⟩, ?_⟩
    rw [h1.1]; simp

/-- A write key is shown to nobody else: whatever the settings, a request with an `Authorization` goes
over HTTPS to the host of the DSN and shows the key of the DSN. -/
theorem c217_key {parse : Text → Option Url} (hp : HostsPlain parse) {s : Settings} {st : Stream} {a : Text}
    (h : st ∈ streams parse s) (ha : st.auth = some a) :
    ∃ host key project, Names parse s.dsn host key project ∧ a = t! "Bearer " ++ key ∧
      t! "https://" ++ (host ++ t! "/monitoring/ingest/v1/") <+: st.address := by
  have h' := mem_streams.1 h
  obtain ⟨ho, h1 | ⟨c, hc, h1⟩⟩ := h'
  · rw [own_no_auth h1] at ha; cases ha
  · obtain ⟨host, hn, -⟩ := names_of hc
    refine ⟨host, c.publicKey, c.projectID, hn, ?_⟩
    obtain ⟨h2, h3⟩ := (c217_sent hp ho hn st).1 ⟨h, by rw [ha]; simp⟩
    rw [ha] at h2; injection h2 with h2
    refine ⟨h2, ?_⟩
    rcases h3 with ⟨-, h3⟩ | ⟨-, h3⟩ | ⟨-, h3⟩ <;> rw [h3]
    · exact ⟨t! "otlp/traces", by simp⟩
    · exact ⟨t! "otlp/metrics", by simp⟩
    · exact ⟨t! "logs", by simp⟩

/-- A DSN of another form is as good as none: nothing goes to monitoring, and what else is sent stays. -/
theorem c217_refused {parse : Text → Option Url} {s : Settings} (h : ∀ host key project, ¬ Names parse s.dsn host key project) :
    streams parse s = streams parse { s with dsn := [] } ∧ ∀ st ∈ streams parse s, st.auth = none := by
  have hc : exporterConfig parse (remoteDSN s) = none := by
    cases hc : exporterConfig parse (remoteDSN s) with
    | none => rfl
    | some c => obtain ⟨host, hn, -⟩ := names_of hc; exact absurd hn (h _ _ _)
  have hc0 : exporterConfig parse (remoteDSN { s with dsn := [] }) = none := rfl
  constructor
  · simp only [streams, hc, hc0, traceExporter, metricExporter]
  · intro st hst
    obtain ⟨-, h1 | ⟨c, hc', -⟩⟩ := mem_streams.1 hst
    · exact own_no_auth h1
    · rw [hc] at hc'; cases hc'

/-- The project of a DSN is asked for and never sent: DSNs that differ only there send the same. -/
theorem c217_project {parse : Text → Option Url} {s : Settings} {dsn' host key p p' : Text}
    (h : Names parse s.dsn host key p) (h' : Names parse dsn' host key p') :
    streams parse s = streams parse { s with dsn := dsn' } := by
  have hc := config_of h
  have hc' := config_of (s := { s with dsn := dsn' }) h'
  simp only [streams, hc, hc', traceExporter, metricExporter]
  rfl

/-- The variable with the old name, which `FromEnv` reads, has no effect on a server. -/
theorem c217_legacy (parse : Text → Option Url) (s : Settings) (l : Text) :
    streams parse { s with legacy := l } = streams parse s := rfl

/-- Traces and logs are not sent in the clear where an HTTPS address is set, and nothing is that goes to
monitoring. Missing: metrics of the environment (`c217_metrics_clear`). -/
theorem c217_clear_partial {parse : Text → Option Url} (hp : HostsPlain parse) {s : Settings} {st : Stream}
    (h : st ∈ streams parse s) (hc : Clear st) :
    st.auth = none ∧ st.signal ≠ .logs ∧ (st.signal = .traces → ¬ AsksHTTPS parse (endpointOf s .traces)) := by
  have no : ∀ t : Text, ¬ t! "http://" <+: t! "https://" ++ t := by
    rintro t ⟨r, hr⟩
    have := congrArg (fun l => l[4]?) hr
    simp at this
  have hau : st.auth = none := by
    cases ha : st.auth with
    | none => rfl
    | some a =>
      obtain ⟨host, key, project, -, -, r, hr⟩ := c217_key hp h ha
      exfalso
      unfold Clear at hc
      rw [← hr, List.append_assoc] at hc
      exact no _ hc
  obtain ⟨ho, h1 | ⟨c, hc', h1⟩⟩ := mem_streams.1 h
  · refine ⟨hau, ?_, ?_⟩
    · rcases h1 with rfl | h1
      · rw [trace_eq]; simp
      · obtain ⟨u, -, rfl⟩ := metric_mem h1; simp
    · intro hs ⟨hne, u, hu, hus, huh⟩
      rcases h1 with rfl | h1
      · unfold Clear at hc
        rw [trace_eq] at hc
        simp only [if_neg hne, parseOTLPEndpoint, hu, if_neg huh, hus] at hc
        simp [web] at hc
      · obtain ⟨u', -, rfl⟩ := metric_mem h1
        simp at hs
  · obtain ⟨host, hn, -⟩ := names_of hc'
    simp only [monitoring, List.mem_cons, List.not_mem_nil, or_false] at h1
    have hk : c.publicKey ≠ [] := by obtain ⟨-, u, i, j, -, -, -, -, -, hkn, -⟩ := hn; exact hkn
    rcases h1 with rfl | rfl | rfl <;> simp [header, hk] at hau

/-- Without a write key things go only to the endpoints that are set for them, and traces to this machine
if none is set. -/
theorem c217_own {parse : Text → Option Url} {s : Settings} {st : Stream} (h : st ∈ streams parse s) (ha : st.auth = none) :
    st.address = t! "http://localhost:4318/v1/traces" ∧ st.signal = .traces ∧ s.otlpTraces = [] ∧ s.otlp = [] ∨
    ∃ pre path, st.address = pre ++ ((match parse (endpointOf s st.signal) with
        | some u => if u.host = [] then (if st.signal = .traces then endpointOf s st.signal else []) else u.host
        | none => endpointOf s st.signal) ++ path) ∧ endpointOf s st.signal ≠ [] ∧
      (pre = t! "http://" ∨ pre = t! "https://" ∧ AsksHTTPS parse (endpointOf s st.signal)) := by
  obtain ⟨-, (rfl | h1) | ⟨c, hc, h1⟩⟩ := mem_streams.1 h
  · rw [trace_eq]
    by_cases he : endpointOf s .traces = []
    · left
      refine ⟨?_, rfl, ?_⟩
      · simp only [if_pos he]; decide +kernel
      · simp only [endpointOf] at he
        by_cases h2 : s.otlpTraces = []
        · rw [if_pos h2] at he; exact ⟨h2, he⟩
        · rw [if_neg h2] at he; exact absurd he h2
    · right
      simp only [if_neg he, parseOTLPEndpoint]
      cases hu : parse (endpointOf s .traces) with
      | none => exact ⟨t! "http://", t! "/v1/traces", by simp [web], he, .inl rfl⟩
      | some u =>
        by_cases hh : u.host = []
        · exact ⟨t! "http://", t! "/v1/traces", by simp [hh, web], he, .inl rfl⟩
        · by_cases hs : u.scheme = t! "https"
          · exact ⟨t! "https://", t! "/v1/traces", by simp [hh, hs, web], he, .inr ⟨rfl, he, u, hu, hs, hh⟩⟩
          · exact ⟨t! "http://", t! "/v1/traces", by simp [hh, hs, web], he, .inl rfl⟩
  · obtain ⟨u, hu, rfl⟩ := metric_mem h1
    right
    have he : endpointOf s .metrics ≠ [] := by
      intro he
      simp only [endpointOf] at he
      unfold metricExporter at h1
      by_cases h2 : s.otlpMetrics = []
      · rw [if_pos h2] at he; simp [h2, he] at h1
      · rw [if_neg h2] at he; exact h2 he
    refine ⟨t! "http://", t! "/v1/metrics", ?_, he, .inl rfl⟩
    simp only [hu, web, if_true]
    by_cases hh : u.host = [] <;> simp [hh]
  · obtain ⟨host, hn, -⟩ := names_of hc
    have hk : c.publicKey ≠ [] := by obtain ⟨-, u, i, j, -, -, -, -, -, hkn, -⟩ := hn; exact hkn
    simp only [monitoring, List.mem_cons, List.not_mem_nil, or_false] at h1
    rcases h1 with rfl | rfl | rfl <;> simp [header, hk] at ha

/-- Metrics for which the environment sets an HTTPS address are sent in the clear, to its host. -/
theorem c217_metrics_clear {parse : Text → Option Url} {s : Settings} {u : Url} (ho : s.observability = true)
    (he : endpointOf s .metrics ≠ []) (hu : parse (endpointOf s .metrics) = some u) :
    { signal := .metrics, address := t! "http://" ++ (u.host ++ t! "/v1/metrics") } ∈ streams parse s := by
  rw [mem_streams]
  refine ⟨ho, .inl (.inr ?_)⟩
  simp only [endpointOf] at he hu
  have : s.otlpMetrics ≠ [] ∨ s.otlp ≠ [] := by
    by_cases h : s.otlpMetrics = []
    · rw [if_pos h] at he; exact .inr he
    · exact .inl h
  simp [metricExporter, if_pos this, hu, web]

/-- Settings with an HTTPS address for everything and a DSN. -/
def sample : Settings :=
  { observability := true, dsn := t! " https://wk_1@observe.example/proj_7/ ", otlp := t! "https://collector.example:4318" }

theorem goParse_plain : HostsPlain goParse := by
  intro r u h
  have key : ∀ l : Text, '/' ∉ l.takeWhile (· ≠ '/') := by
    intro l hm
    simpa using List.mem_takeWhile_imp hm
  simp only [goParse] at h
  split at h
  · split at h
    · injection h with h
      subst h
      intro hm
      exact key _ ((List.dropWhile_sublist _).mem (List.mem_of_mem_drop hm))
    · injection h with h
      subst h
      exact key _
  · cases h

example : Names goParse sample.dsn (t! "observe.example") (t! "wk_1") (t! "proj_7") :=
  ⟨by decide +kernel, { scheme := t! "https", user := some (t! "wk_1"), host := t! "observe.example", path := t! "/proj_7/" }, 1, 1,
    by decide +kernel⟩

example : streams goParse sample =
    [{ signal := .traces, address := t! "https://collector.example:4318/v1/traces" },
     { signal := .metrics, address := t! "http://collector.example:4318/v1/metrics" },
     { signal := .traces, address := t! "https://observe.example/monitoring/ingest/v1/otlp/traces", auth := some (t! "Bearer wk_1") },
     { signal := .metrics, address := t! "https://observe.example/monitoring/ingest/v1/otlp/metrics", auth := some (t! "Bearer wk_1") },
     { signal := .logs, address := t! "https://observe.example/monitoring/ingest/v1/logs", auth := some (t! "Bearer wk_1") }] := by
  decide +kernel

/-- A DSN that is refused: two parts in the path. -/
example : exporterConfig goParse (t! "https://wk_1@observe.example/a/b") = none := by decide +kernel

/-- Another project, the same requests. -/
example : streams goParse sample = streams goParse { sample with dsn := t! "https://wk_1@observe.example/other" } := by decide +kernel

/-- Only the old variable is set: `FromEnv` finds a configuration, a server sends nothing to monitoring. -/
theorem c217_legacy_lost :
    (fromEnv goParse [] sample.dsn).toOption.join ≠ none ∧
      ∀ st ∈ streams goParse { sample with dsn := [], legacy := sample.dsn }, st.auth = none := by
  decide +kernel

/-- C217 fails: metrics leave in the clear although the address says `https`. -/
theorem c217_full_fails : ¬ C217Full := by
  intro h
  exact h sample { signal := .metrics, address := t! "http://collector.example:4318/v1/metrics" } (by decide +kernel)
    ⟨t! "collector.example:4318/v1/metrics", by decide +kernel⟩
    ⟨by decide +kernel, { scheme := t! "https", host := t! "collector.example:4318" }, by decide +kernel⟩

end Blnk.Tele
