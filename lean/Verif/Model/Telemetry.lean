import Verif.Model.Csv
/-
Where traces, metrics and logs are sent (`internal/monitoringexporter/config.go`, `exporters.go`,
`logs.go:115-138`, `internal/traces/otel.go:57-123, 141-265`, `config/config.go:263-268`,
`cmd/server.go:321-333`).

`url.Parse` is a parameter; `goParse` is a small version of it for the concrete cases. Of the exporters
of OpenTelemetry it is assumed what their documentation says: `WithEndpoint` and `WithEndpointURL` name
the address, `WithInsecure` means plain HTTP whatever the environment says, an exporter of metrics
without an endpoint option asks the host of the variable for metrics or else of the general one, and
one of traces without an endpoint at all asks `localhost:4318`. Not modelled: what is sent (see Export),
the metrics the server offers for collection, redirects, failures of exporters, other variables of
OpenTelemetry, escapes in hosts.
-/
namespace Blnk.Tele

open Blnk.Errs (Text)
open Blnk.Csv (trim)

/-- What is used of `url.URL`; `user` is the user name, if there is a user part. -/
structure Url where
  scheme : Text
  user : Option Text := none
  host : Text
  path : Text := []
deriving DecidableEq, Repr

/-- `strings.TrimLeft(s, "/")`. -/
def trimLeft (s : Text) : Text := s.dropWhile (· = '/')

/-- `strings.TrimRight(s, "/")`. -/
def trimRight (s : Text) : Text := (s.reverse.dropWhile (· = '/')).reverse

/-- `Config` (`internal/monitoringexporter/config.go:19-25`), without the timeout. -/
structure Config where
  dsn : Text
  publicKey : Text
  projectID : Text
  endpoint : Text
deriving DecidableEq, Repr

/-- `ParseDSN` (`internal/monitoringexporter/config.go:54-94`). -/
def parseDSN (parse : Text → Option Url) (raw0 : Text) : Except String Config :=
  let raw := trim raw0
  if raw = [] then .error "monitoring exporter DSN is empty"
  else match parse raw with
    | none => .error "monitoring exporter DSN is invalid"
    | some u =>
      if u.scheme ≠ t! "https" then .error "monitoring exporter DSN must use https"
      else if u.host = [] then .error "monitoring exporter DSN host is required"
      else if u.user.getD [] = [] then .error "monitoring exporter DSN write key is required"
      else
        let project := trimRight (trimLeft (trim u.path))
        if project = [] then .error "monitoring exporter DSN project id is required"
        else if '/' ∈ project then .error "monitoring exporter DSN project id must be a single path segment"
        else .ok { dsn := raw, publicKey := u.user.getD [], projectID := project,
                   endpoint := u.scheme ++ (t! "://" ++ u.host) }

/-- `FromDSN` (`internal/monitoringexporter/config.go:37-50`): no setting is not an error. -/
def fromDSN (parse : Text → Option Url) (dsn0 : Text) : Except String (Option Config) :=
  let dsn := trim dsn0
  if dsn = [] then .ok none
  else match parseDSN parse dsn with
    | .error e => .error e
    | .ok c => .ok (some c)

/-- `FromEnv` (`internal/monitoringexporter/config.go:29-35`): the old variable counts if the new one is
blank. Only tests call it. -/
def fromEnv (parse : Text → Option Url) (dsn legacy : Text) : Except String (Option Config) :=
  fromDSN parse (if trim dsn = [] then legacy else dsn)

/-- The value of the `Authorization` header, if it is set (`internal/monitoringexporter/config.go:96-102`). -/
def header (c : Config) : Option Text :=
  if c.publicKey ≠ [] then some (t! "Bearer " ++ c.publicKey) else none

/-- `SignalURL` (`internal/monitoringexporter/config.go:104-107`). -/
def signalURL (c : Config) (signal : Text) : Text :=
  trimRight c.endpoint ++ (t! "/monitoring/ingest/v1/" ++ trimLeft signal)

/-- `OTLPSignalURL` (`internal/monitoringexporter/config.go:109-112`). -/
def otlpSignalURL (c : Config) (signal : Text) : Text :=
  trimRight c.endpoint ++ (t! "/monitoring/ingest/v1/otlp/" ++ trimLeft signal)

/-- The settings. Texts are empty if they are not set. -/
structure Settings where
  /-- `enable_observability` -/
  observability : Bool
  /-- `monitoring_dsn`, `BLNK_MONITORING_DSN` -/
  dsn : Text := []
  /-- `BLNK_CLOUD_DSN` -/
  legacy : Text := []
  /-- `OTEL_EXPORTER_OTLP_ENDPOINT` -/
  otlp : Text := []
  /-- `OTEL_EXPORTER_OTLP_TRACES_ENDPOINT` -/
  otlpTraces : Text := []
  /-- `OTEL_EXPORTER_OTLP_METRICS_ENDPOINT` -/
  otlpMetrics : Text := []
deriving DecidableEq, Repr

inductive Signal
  | traces | metrics | logs
deriving DecidableEq, Repr

/-- A stream of requests: what they carry, where they go and the `Authorization` they show. -/
structure Stream where
  signal : Signal
  address : Text
  auth : Option Text := none
deriving DecidableEq, Repr

/-- `parseOTLPEndpoint` (`internal/traces/otel.go:249-256`): the host and whether plain HTTP is used. -/
def parseOTLPEndpoint (parse : Text → Option Url) (endpoint : Text) : Text × Bool :=
  match parse endpoint with
  | none => (endpoint, true)
  | some u => if u.host = [] then (endpoint, true) else (u.host, u.scheme ≠ t! "https")

def web (insecure : Bool) (host path : Text) : Text :=
  (if insecure then t! "http://" else t! "https://") ++ (host ++ path)

/-- `newTraceExporter` (`internal/traces/otel.go:224-244`). -/
def traceExporter (parse : Text → Option Url) (s : Settings) : Stream :=
  let endpoint := if s.otlpTraces = [] then s.otlp else s.otlpTraces
  if endpoint = [] then { signal := .traces, address := web true (t! "localhost:4318") (t! "/v1/traces") }
  else
    let (host, insecure) := parseOTLPEndpoint parse endpoint
    { signal := .traces, address := web insecure host (t! "/v1/traces") }

/-- The exporter of metrics the environment asks for (`internal/traces/otel.go:187-197`). -/
def metricExporter (parse : Text → Option Url) (s : Settings) : List Stream :=
  if s.otlpMetrics ≠ [] ∨ s.otlp ≠ [] then
    match parse (if s.otlpMetrics = [] then s.otlp else s.otlpMetrics) with
    | some u => [{ signal := .metrics, address := web true u.host (t! "/v1/metrics") }]
    | none => []
  else []

/-- `RemoteMonitoringDSN` (`config/config.go:263-268`). -/
def remoteDSN (s : Settings) : Text := if trim s.dsn ≠ [] then s.dsn else []

/-- `monitoringExporterConfigFromDSN` (`internal/traces/otel.go:258-265`): a DSN that is refused means
no exporter. -/
def exporterConfig (parse : Text → Option Url) (dsn : Text) : Option Config :=
  match fromDSN parse dsn with
  | .error _ => none
  | .ok c => c

/-- What goes to remote monitoring: `NewTraceExporter`, `NewMetricReader`
(`internal/monitoringexporter/exporters.go:14-37`) and the logs
(`internal/monitoringexporter/logs.go:115-138`), if there is a configuration
(`internal/traces/otel.go:83, 116-120, 152-160, 199-206`). -/
def monitoring (c : Config) : List Stream :=
  [{ signal := .traces, address := otlpSignalURL c (t! "traces"), auth := header c },
   { signal := .metrics, address := otlpSignalURL c (t! "metrics"), auth := header c },
   { signal := .logs, address := signalURL c (t! "logs"), auth := header c }]

/-- What a server sends (`cmd/server.go:328-333`, `internal/traces/otel.go:57-123`). -/
def streams (parse : Text → Option Url) (s : Settings) : List Stream :=
  if s.observability then
    traceExporter parse s :: (metricExporter parse s ++
      match exporterConfig parse (remoteDSN s) with
      | some c => monitoring c
      | none => [])
  else []

/-! ### A small version of `url.Parse` -/

/-- The text before and after the first `c`. -/
def cut (c : Char) (s : Text) : Text × Text := (s.takeWhile (· ≠ c), (s.dropWhile (· ≠ c)).drop 1)

/-- A scheme, `://`, a user with an optional password before `@`, a host, a path. -/
def goParse (s : Text) : Option Url :=
  let scheme := s.takeWhile (· ≠ ':')
  let rest := s.dropWhile (· ≠ ':')
  if (t! "://").isPrefixOf rest then
    let authority := (rest.drop 3).takeWhile (· ≠ '/')
    let path := (rest.drop 3).dropWhile (· ≠ '/')
    if '@' ∈ authority then
      some { scheme := scheme, user := some (cut ':' (cut '@' authority).1).1, host := (cut '@' authority).2, path := path }
    else some { scheme := scheme, host := authority, path := path }
  else none

end Blnk.Tele
