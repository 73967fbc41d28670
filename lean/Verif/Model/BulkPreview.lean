import Verif.Model.SettleCall
import Verif.Model.Bulk
/-
The dry run of a bulk commit or void (`POST /transactions/inflight/bulk/commit` and `/void` with `dry_run`).
-/
namespace Blnk.Undo
open Blnk Preview

/-- Whether the projection of one item says that it would apply; an error is turned into a rejection
(`api/transactions.go:770-782`). -/
def applies : Except (InfErr ⊕ OpErr) Cleared → Bool
  | .ok p => p.wouldApply
  | .error _ => false

/-- What one item is said to settle. -/
def shownTotal : Except (InfErr ⊕ OpErr) Cleared → Int
  | .ok p => p.total
  | .error _ => 0

/-- The answer to the dry run of a batch. -/
structure ManyShown where
  wouldApply : Bool
  results : List (Except (InfErr ⊕ OpErr) Cleared)
  /-- the ids of which the note says that only one occurrence can succeed -/
  repeated : List String

/-- The ids met a second time, in that order (`api/transactions.go:755-763`). -/
def dupes : List String → List BulkItem → List String
  | _, [] => []
  | seen, it :: its => if it.txn ∈ seen then it.txn :: dupes seen its else dupes (it.txn :: seen) its

/-- `uniqueStrings` (`api/transactions.go:794-805`). -/
def uniqueIds : List String → List String → List String
  | _, [] => []
  | seen, s :: ss => if s ∈ seen then uniqueIds seen ss else s :: uniqueIds (s :: seen) ss

/-- `respondBulkInflightPreview` (`api/transactions.go:735-791`): every item is projected by itself, on the
balances as they stand. Not modelled: the codes given to the rejections. -/
def previewMany (cfg : Cfg) (db : DB) (void : Bool) (items : List BulkItem) : ManyShown :=
  let rs := items.map (fun it => previewClear cfg db it.txn void it.amount)
  ⟨rs.all applies, rs, uniqueIds [] (dupes [] items)⟩

end Blnk.Undo
