import Verif.Async.CountLemmas

/-! # A schedule that floods the pool -/

namespace Tm.Async

/-! ## Schedules for the examples -/

/-- The main thread goes on. -/
def m (k : Nat) : List Act := List.replicate k (.main false)

/-- A worker thread goes on. It takes nine steps to execute one work. -/
def w (i k : Nat) : List Act := List.replicate k (.worker i)

/-- `tma_push_async_work`, which hands the work to the worker threads. -/
def push : List Act := .call (.push false true) :: m 6

/-- 257 works are pushed before the worker thread executes any. -/
def flood : List Act :=
  (List.replicate 256 push).flatten ++ [.call (.push false true)] ++ m 7 ++ List.replicate 6 (.dispatcher true) ++
    w 0 5 ++ [.dispatcher true] ++ w 0 4 ++ w 0 (255 * 9)

/-- What the state is like in the end. -/
def flooded (st : State) : Bool :=
  decide (st.main = .idle ∧ st.workers = [.wait] ∧ st.work.readSem = 0 ∧ st.dispatcher = .ended ∧
    .dispatched 256 ∈ st.log ∧ .started 256 ∉ st.log)

set_option maxRecDepth 100000 in
theorem flood_check : (match runs calm (init 1) flood with
    | some st => flooded st
    | none => false) = true := by decide +kernel

theorem flood_run : ∃ st, runs calm (init 1) flood = some st ∧ flooded st = true := by
  have h := flood_check
  cases hr : runs calm (init 1) flood with
  | none => rw [hr] at h; exact nomatch h
  | some st => rw [hr] at h; exact ⟨st, rfl, h⟩

end Tm.Async
