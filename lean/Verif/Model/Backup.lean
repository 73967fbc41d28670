import Verif.Model.Errors
/-
Backups of the database (`internal/pg-backups/pg-backup-drive.go:96-202`), asked for with
`GET /backup` and `GET /backup-s3` (`api/admin.go:36-72`).

`pg_dump` is a program that writes a file: a dump that succeeds leaves the whole database in the file
it is told to write, a dump that fails leaves something else there. Requests for backups follow each
other (two at the same time are not modelled). The connection test and the parsing of the address of
the database either fail, which leaves everything as it was and is not modelled, or give the name of
the database. The clock is the local one: any function from moments (in seconds) to readings.
-/
namespace Blnk.Backup

abbrev Str := List Char

/-- A reading of the local clock. -/
structure Reading where
  year : Nat
  month : Nat
  day : Nat
  hour : Nat
  min : Nat
  sec : Nat
deriving DecidableEq, Repr

def digit (n : Nat) : Char := Char.ofNat (48 + n % 10)

def two (n : Nat) : Str := [digit (n / 10), digit n]

def four (n : Nat) : Str := two (n / 100) ++ two n

/-- `Format("2006-01-02")` (`internal/pg-backups/pg-backup-drive.go:126`). -/
def dateText (r : Reading) : Str := four r.year ++ '-' :: (two r.month ++ '-' :: two r.day)

/-- `Format("150405")` (`internal/pg-backups/pg-backup-drive.go:135`). -/
def timeText (r : Reading) : Str := two r.hour ++ two r.min ++ two r.sec

/-- What is configured: `backup_dir` and the name of the database
(`internal/pg-backups/pg-backup-drive.go:117-126`). -/
structure Cfg where
  dir : Str
  db : Str

/-- `fmt.Sprintf("%s-%s.sql", …)` (`internal/pg-backups/pg-backup-drive.go:135`). -/
def fileName (c : Cfg) (r : Reading) : Str := c.db ++ '-' :: (timeText r ++ t! ".sql")

/-- The path of the file (`internal/pg-backups/pg-backup-drive.go:126, 135`): the clock is read once
for the directory and once for the name. `dir` is taken to be clean, so `filepath.Join` only puts the
slashes. -/
def path (c : Cfg) (atDir atName : Reading) : Str :=
  c.dir ++ '/' :: (dateText atDir ++ '/' :: fileName c atName)

/-- The part after the last slash (`filepath.Split`, `internal/pg-backups/pg-backup-drive.go:187`). -/
def base : Str → Str
  | [] => []
  | ch :: s => if '/' ∈ s then base s else if ch = '/' then s else ch :: s

/-- A file: a whole dump of the database, or what a failed dump left. -/
inductive File
  | whole (dump : Nat)
  | broken
deriving DecidableEq, Repr

/-- The files on disk and the objects in the bucket. -/
structure Store where
  disk : Str → Option File := fun _ => none
  bucket : Str → Option File := fun _ => none

def put (f : Str → Option File) (k : Str) (v : File) : Str → Option File :=
  fun x => if x = k then some v else f x

/-- A request for a backup: the moments at which the clock is read, what the database holds, whether
`pg_dump` succeeds, whether the file is to go to the bucket and whether the upload succeeds. -/
structure Job where
  atDir : Nat
  atName : Nat
  dump : Nat
  dumped : Bool := true
  s3 : Bool := false
  uploaded : Bool := true
deriving DecidableEq, Repr

def Job.path (c : Cfg) (clock : Nat → Reading) (j : Job) : Str :=
  Backup.path c (clock j.atDir) (clock j.atName)

/-- `BackupToDisk` (`internal/pg-backups/pg-backup-drive.go:96-161`). -/
def toDisk (c : Cfg) (clock : Nat → Reading) (j : Job) (s : Store) : Store × Option Str :=
  let p := j.path c clock
  if j.dumped then ({ s with disk := put s.disk p (.whole j.dump) }, some p)
  else ({ s with disk := put s.disk p .broken }, none)

/-- `BackupToS3` (`internal/pg-backups/pg-backup-drive.go:171-202`): the key of the object is the name
of the file without its directory. -/
def toS3 (c : Cfg) (clock : Nat → Reading) (j : Job) (s : Store) : Store × Bool :=
  match toDisk c clock j s with
  | (s', none) => (s', false)
  | (s', some p) =>
    match s'.disk p with
    | none => (s', false)
    | some f =>
      if j.uploaded then ({ s' with bucket := put s'.bucket (base p) f }, true) else (s', false)

/-- A request and whether it is answered with success (`api/admin.go:36-72`). -/
def serve (c : Cfg) (clock : Nat → Reading) (j : Job) (s : Store) : Store × Bool :=
  if j.s3 then toS3 c clock j s
  else ((toDisk c clock j s).1, (toDisk c clock j s).2.isSome)

/-- The requests in turn. -/
def serveAll (c : Cfg) (clock : Nat → Reading) : List Job → Store → Store
  | [], s => s
  | j :: js, s => serveAll c clock js (serve c clock j s).1

end Blnk.Backup
