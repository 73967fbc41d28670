import Verif.Model.AtomicBulk
/-
Walking the rows of a parent transaction page by page (`transaction_batch_processing.go:171-222`,
`transaction_inflight.go:661-682`).

`q k` is the complete ordered answer the `k`-th query would have without `LIMIT` and `OFFSET`. The
workers and all other requests run while the pages are read, so it may differ from query to query.
Not modelled: a failing query and a cancelled request, which end the walk with an error.
-/
namespace Blnk.Paging

variable {α : Type}

/-- `LIMIT size OFFSET off`. -/
def page (l : List α) (size off : Nat) : List α := (l.drop off).take size

/-- `fetchTransactions` (`transaction_batch_processing.go:171-222`) from query `k` and offset `off`:
the rows handed to the workers, in order, of a walk that ends. -/
inductive Walk (size : Nat) (q : Nat → List α) : Nat → Nat → List α → Prop
  | stop {k off} : page (q k) size off = [] → Walk size q k off []
  | next {k off out} : page (q k) size off ≠ [] → Walk size q (k + 1) (off + (page (q k) size off).length) out →
      Walk size q k off (page (q k) size off ++ out)

/-- `collectInflightLegs` (`transaction_inflight.go:665-682`): the offset grows by the page size, and
a short page is the last. -/
inductive Collect (size : Nat) (q : Nat → List α) : Nat → Nat → List α → Prop
  | last {k off} : (page (q k) size off).length < size → Collect size q k off (page (q k) size off)
  | next {k off out} : ¬ (page (q k) size off).length < size → Collect size q (k + 1) (off + size) out →
      Collect size q k off (page (q k) size off ++ out)

/-- A possible answer of a query `ORDER BY created_at DESC` over these rows: newest first, rows
created at the same time in any order (`database/transaction_refunds.go:50-52`,
`database/transaction_grouping.go:374-376`). -/
structure Answer (rows l : List Txn) : Prop where
  perm : l.Perm rows
  sorted : l.Pairwise fun a b => b.createdAt ≤ a.createdAt

/-- The queries of one walk and the ledger at each of them; anything may happen in between. -/
structure Course (cfg : Cfg) (listing : DB → List Txn) (between : Nat → List RStep) (S : Nat → DB) (q : Nat → List Txn) : Prop where
  next : ∀ k, S (k + 1) = rsteps cfg (S k) (between k)
  answer : ∀ k, Answer (listing (S k)) (q k)

end Blnk.Paging
