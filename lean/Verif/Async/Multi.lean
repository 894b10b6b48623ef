import Verif.Async.Model

/-!
# Model of waiting for several works (tm_async.h)

`tma_wait_all`, `tma_wait_all_for`, `tma_wait_any` and `tma_wait_any_for`. Here the pool is what the waiting thread, the main thread, can
see and do: its slots. The other threads are a schedule that says what they do to the slots before each access of the main thread; they
take works out of the queue, run them, and signal the end, each step on its own. Whether pushing succeeds, and when a wait times out or
fails, is also part of the schedule. `Verif.Async.Model` models the queues and threads behind this.

Not modelled: the last way to wait, with `RegisterWaitForSingleObject`, lines 1477 to 1768, which is taken when there are more than 64
handles to wait for; the result is then `.slow`.
-/

namespace Tm.Async

/-- Where a work is: not dispatched, in the dispatch queue, in the work queue, run by a worker, taken by the main thread, at its end. -/
inductive Stage where
  | deferred | parked | queued | running | mine | over
deriving DecidableEq, Repr

/-- `tma_work_slot`, tm_async.h lines 711 to 724, as far as it matters to waiting threads. -/
structure Work where
  stage : Stage := .deferred
  /-- `work_ring_pos` is not negative -/
  placed : Bool := false
  /-- `event_signaled` -/
  signaled : Bool := false
  /-- whether `event` is signaled -/
  event : Bool := false
  /-- `pending` -/
  pending : Bool := false
  /-- ghost: how often the procedure was called -/
  runs : Nat := 0
  /-- ghost: whether the procedure has returned -/
  done : Bool := false
deriving DecidableEq, Repr

/-- What other threads do to a slot: the dispatch thread moves it to the work queue; a worker thread takes it out and calls the procedure,
the procedure returns, and `tma_impl_execute` sets the flag and the event, tm_async.h lines 936 to 949. -/
inductive Change where
  | forward | take | finish | mark | set
deriving DecidableEq, Repr

/-- A change that is not possible is none. -/
def Work.apply (w : Work) : Change → Work
  | .forward => if w.stage = .parked then { w with stage := .queued } else w
  | .take => if w.stage = .queued then { w with stage := .running, runs := w.runs + 1 } else w
  | .finish => if w.stage = .running then { w with stage := .over, done := true } else w
  | .mark => if w.stage = .over then { w with signaled := true } else w
  | .set => if w.stage = .over ∧ w.signaled = true then { w with event := true } else w

/-- Where a work that is pushed goes to. -/
inductive Place where
  | work | dispatch | nowhere
deriving DecidableEq, Repr

/-- What happens around one access of the main thread. -/
structure Turn where
  changes : List (Nat × Change) := []
  place : Place := .work
  /-- the time of a wait is over -/
  timeout : Bool := false
  /-- the wait fails -/
  fails : Bool := false

/-- The slots, and the number of accesses so far. -/
structure Pool where
  works : List Work
  clock : Nat := 0
deriving DecidableEq, Repr

/-- The other threads run. -/
def Pool.tick (σ : Nat → Turn) (p : Pool) : Pool :=
  ⟨(σ p.clock).changes.foldl (fun ws x => ws.modify x.1 (·.apply x.2)) p.works, p.clock + 1⟩

/-- The error codes that matter here. `TM_ECANCELED` stands for all that a wait that fails can give, lines 1101 to 1103. -/
inductive WaitErr where
  | ok | eperm | etimedout | ecanceled
deriving DecidableEq, Repr

/-- The limit of time: 0, more, `INFINITE`. -/
inductive Limit where
  | poll | some | infinite
deriving DecidableEq, Repr

/-- A load from the slot `i`, `tma_get_work_slot` being tm_async.h lines 916 to 930. -/
def Pool.look (σ : Nat → Turn) (p : Pool) (i : Nat) : C (Work × Pool) := do
  let w ← rd (p.tick σ).works i
  .ok (w, p.tick σ)

/-- A store to the slot `i`. -/
def Pool.store (σ : Nat → Turn) (p : Pool) (i : Nat) (f : Work → Work) : C Pool := do
  let w ← rd (p.tick σ).works i
  .ok { p.tick σ with works := (p.tick σ).works.set i (f w) }

/-- `tma_impl_dispatch_async_work`, tm_async.h lines 1079 to 1089, in one step; that it may block is not visible here. -/
def Pool.dispatch (σ : Nat → Turn) (p : Pool) (i : Nat) : C (Bool × Pool) := do
  let w ← rd (p.tick σ).works i
  assert (!w.placed)
  match (σ p.clock).place with
  | .work => .ok (true, { p.tick σ with works := (p.tick σ).works.set i { w with stage := .queued, placed := true } })
  | .dispatch => .ok (true, { p.tick σ with works := (p.tick σ).works.set i { w with stage := .parked, placed := true } })
  | .nowhere => .ok (false, p.tick σ)

/-- `tma_impl_pop_slot`, tm_async.h lines 880 to 884 -/
def Pool.pop (σ : Nat → Turn) (p : Pool) (i : Nat) : C (Bool × Pool) := do
  let w ← rd (p.tick σ).works i
  if w.placed = false then .error .oob
  else if w.stage = .queued then .ok (true, { p.tick σ with works := (p.tick σ).works.set i { w with stage := .mine } })
  else .ok (false, p.tick σ)

/-- `tma_impl_execute` in the main thread, tm_async.h lines 936 to 949, in one step: the slot is in no queue. -/
def Pool.execute (σ : Nat → Turn) (p : Pool) (i : Nat) : C Pool :=
  p.store σ i fun w => { w with stage := .over, runs := w.runs + 1, done := true, signaled := true, event := true }

/-- Which of the events ends the wait: the first one that is signaled, or, if all are waited for, the first one when all are signaled. -/
def wakes (ws : List Work) (all : Bool) (events : List Nat) : Option Nat :=
  let on := fun i => ((ws[i]?).map (·.event)).getD false
  if all then (if events.all on then some 0 else none) else events.findIdx? on

/-- `WaitForMultipleObjects`, with `tma_wait_result_to_errc`, tm_async.h lines 1091 to 1106; `.diverge` if the wait is not over after `fuel`
looks at the events. -/
def Pool.waitEvents (σ : Nat → Turn) (all : Bool) (events : List Nat) (limit : Limit) : Nat → Pool → C ((WaitErr × Nat) × Pool)
  | 0, _ => .error .diverge
  | fuel + 1, p =>
    if (σ p.clock).fails then .ok ((.ecanceled, 0), p.tick σ)
    else match wakes (p.tick σ).works all events with
      | some k => .ok ((.ok, k), p.tick σ)
      | none =>
        if limit = .poll ∨ (limit = .some ∧ (σ p.clock).timeout = true) then .ok ((.etimedout, 0), p.tick σ)
        else Pool.waitEvents σ all events limit fuel (p.tick σ)

/-- `MAXIMUM_WAIT_OBJECTS` of Windows -/
def maxWait : Nat := 64

/-- `tma_wait_any_result`, tm_async.h lines 238 to 241 -/
structure WaitResult where
  index : Nat
  ec : WaitErr
deriving DecidableEq, Repr

/-- What the first loop of `tma_impl_wait_multiple_chunk` finds: a result, or the events to wait for, each with the index of its handle,
and a slot that was not dispatched. -/
inductive Found where
  | result (r : WaitResult)
  | overflow
  | events (buffer : List (Nat × Nat)) (undispatched : Option Nat) (finished : Bool)
deriving DecidableEq, Repr

/-- tm_async.h lines 1141 to 1161 and 1168 to 1201, the loops over the handles: `n` handles from `handles[i]` on. `mem` is the array of the
caller, `handles` points to its element `off`. -/
def collect (σ : Nat → Turn) (mem : List Int) (off : Nat) (all : Bool) (limit : Limit) :
    Nat → Nat → List (Nat × Nat) → Option Nat → Bool → Pool → C (Found × Pool)
  | 0, _, buf, und, fin, p => .ok (.events buf und fin, p)
  | n + 1, i, buf, und, fin, p => do
    let h ← rd mem (off + i)
    if handleValid h = false then collect σ mem off all limit n (i + 1) buf und fin p
    else do
      let s := (handleIndex h).toNat
      let x ← p.look σ s
      if x.1.signaled then
        if all then collect σ mem off all limit n (i + 1) buf und true x.2
        else .ok (.result ⟨i, .ok⟩, x.2)
      else do
        let y ← x.2.look σ s
        let d ← (if y.1.placed = false then y.2.dispatch σ s else .ok (true, y.2))
        if d.1 then
          if buf.length ≥ maxWait then .ok (.overflow, d.2)
          else collect σ mem off all limit n (i + 1) (buf ++ [(s, i)]) und fin d.2
        else if all = false then collect σ mem off all limit n (i + 1) buf (some s) fin d.2
        else match limit with
          | .infinite => do
            let p ← d.2.execute σ s
            collect σ mem off all limit n (i + 1) buf und true p
          | .poll => .ok (.result ⟨0, .etimedout⟩, d.2)
          | .some => .ok (.overflow, d.2)

/-- tm_async.h lines 1229 to 1236: marks the events as signaled, `buf` being what is left of the buffer `events`. The assertion looks at the
event with the number of the handle; events that were never written are the fault `.invalid`. -/
def markAll (σ : Nat → Turn) (mem : List Int) (off : Nat) (events : List (Nat × Nat)) : List (Nat × Nat) → Pool → C Pool
  | [], p => .ok p
  | x :: buf, p => do
    let h ← rd mem (off + x.2)
    if handleValid h = false then markAll σ mem off events buf p
    else do
      let s := (handleIndex h).toNat
      let p ← p.store σ s fun w => { w with signaled := true }
      match events[x.2]? with
      | some e => do
        assert (decide (e.1 = s))
        markAll σ mem off events buf p
      | none => if x.2 < maxWait then .error .invalid else .error .oob

/-- `tma_impl_processed`, `tma_impl_no_work` and `tma_impl_overflow`, tm_async.h line 1125 -/
inductive Kind where
  | processed | noWork | overflow
deriving DecidableEq, Repr

/-- tm_async.h lines 1215 to 1243: waits for the events that were found -/
def waitFound (σ : Nat → Turn) (fuel : Nat) (mem : List Int) (off : Nat) (all : Bool) (limit : Limit) (buf : List (Nat × Nat)) (und : Option Nat)
    (p : Pool) : C ((Kind × WaitResult) × Pool) := do
  let x ← p.waitEvents σ all (buf.map (·.1)) limit fuel
  if x.1.1 ≠ .ok then .ok ((.processed, ⟨0, x.1.1⟩), x.2)
  else do
    let e ← rd buf x.1.2
    let p ← (if all then markAll σ mem off buf buf x.2
      else do
        let h ← rd mem (off + e.2)
        assert (handleValid h)
        let p ← x.2.store σ (handleIndex h).toNat fun w => { w with signaled := true }
        assert (decide ((handleIndex h).toNat = e.1))
        .ok p)
    match und with
    | some s => do
      let d ← p.dispatch σ s
      .ok ((.processed, ⟨e.2, .ok⟩), d.2)
    | none => .ok ((.processed, ⟨e.2, .ok⟩), p)

/-- `tma_impl_wait_multiple_chunk`, tm_async.h lines 1126 to 1244 -/
def waitChunk (σ : Nat → Turn) (fuel : Nat) (mem : List Int) (off count : Nat) (all : Bool) (limit : Limit) (p : Pool) :
    C ((Kind × WaitResult) × Pool) := do
  let x ← collect σ mem off all limit count 0 [] none false p
  match x.1 with
  | .result r => .ok ((.processed, r), x.2)
  | .overflow => .ok ((.overflow, ⟨0, .ok⟩), x.2)
  | .events buf und fin =>
    if buf = [] then
      if all && fin then .ok ((.processed, ⟨0, .ok⟩), x.2) else .ok ((.noWork, ⟨0, .eperm⟩), x.2)
    else waitFound σ fuel mem off all limit buf und x.2

/-- tm_async.h lines 1411 to 1424: looks at all works, in chunks; `res` is the result so far -/
def pollAll (σ : Nat → Turn) (fuel : Nat) (mem : List Int) (count : Nat) : Nat → Nat → WaitResult → Pool → C (WaitResult × Pool)
  | 0, _, _, _ => .error .diverge
  | n + 1, i, res, p =>
    if i < count then do
      let remaining := if maxWait < count - i then count - i else maxWait
      let x ← waitChunk σ fuel mem i remaining true .poll p
      if x.1.2.ec ≠ .ok then .ok (x.1.2, x.2)
      else pollAll σ fuel mem count n (i + maxWait) ⟨x.1.2.index + i, .ok⟩ x.2
    else .ok (res, p)

/-- tm_async.h lines 1425 to 1455: looks whether any work is finished, in chunks; `kind` is `chunk_result`, `late` is `timed_out` -/
def pollAny (σ : Nat → Turn) (fuel : Nat) (mem : List Int) (count : Nat) : Nat → Nat → Kind → Bool → WaitResult → Pool → C (WaitResult × Pool)
  | 0, _, _, _, _, _ => .error .diverge
  | n + 1, i, kind, late, res, p =>
    if i < count then do
      let remaining := if maxWait > count - i then count - i else maxWait
      let x ← waitChunk σ fuel mem i remaining false .poll p
      if x.1.1 = .noWork then pollAny σ fuel mem count n (i + maxWait) x.1.1 late x.1.2 x.2
      else if x.1.2.ec = .ok then .ok (⟨x.1.2.index + i, .ok⟩, x.2)
      else if x.1.2.ec ≠ .etimedout then .ok (x.1.2, x.2)
      else pollAny σ fuel mem count n (i + maxWait) x.1.1 true x.1.2 x.2
    else if kind = .noWork then .ok (if late then ⟨0, .etimedout⟩ else ⟨0, .eperm⟩, p)
    else do
      assert (decide (res.ec = .etimedout))
      .ok (res, p)

/-- tm_async.h lines 1292 to 1301: the slots of a chunk that are not finished. `n` handles from the element `i` of the array on. -/
def gather (σ : Nat → Turn) (mem : List Int) : Nat → Nat → Pool → C (List Nat × Pool)
  | 0, _, p => .ok ([], p)
  | n + 1, i, p => do
    let h ← rd mem i
    if handleValid h = false then gather σ mem n (i + 1) p
    else do
      let s := (handleIndex h).toNat
      let x ← p.look σ s
      if x.1.signaled then gather σ mem n (i + 1) x.2
      else do
        let y ← x.2.look σ s
        let d ← (if y.1.placed = false then y.2.dispatch σ s else .ok (true, y.2))
        let r ← gather σ mem n (i + 1) d.2
        .ok (s :: r.1, r.2)

/-- tm_async.h lines 1307 to 1333: does what can be done of the slots in `slots` in this thread. The events to wait for, and whether
something was done. -/
def work (σ : Nat → Turn) : List Nat → Bool → Pool → C ((List Nat × Bool) × Pool)
  | [], did, p => .ok (([], did), p)
  | s :: slots, did, p => do
    let x ← p.look σ s
    let d ← (if x.1.placed = false then x.2.dispatch σ s else .ok (true, x.2))
    if d.1 = false then do
      let p ← d.2.execute σ s
      work σ slots true p
    else do
      let y ← d.2.look σ s
      if y.1.pending then do
        let r ← work σ slots did y.2
        .ok ((s :: r.1.1, r.1.2), r.2)
      else do
        let t ← y.2.pop σ s
        if t.1 then do
          let p ← t.2.execute σ s
          work σ slots true p
        else do
          let p ← t.2.store σ s fun w => { w with pending := true }
          let r ← work σ slots did p
          .ok ((s :: r.1.1, r.1.2), r.2)

/-- tm_async.h lines 1346 to 1349: marks slots as finished -/
def markSlots (σ : Nat → Turn) : List Nat → Pool → C Pool
  | [], p => .ok p
  | s :: slots, p => do
    let p ← p.store σ s fun w => { w with signaled := true }
    markSlots σ slots p

/-- tm_async.h lines 1281 to 1358: one pass over all chunks. The error that ends the wait, if any, and whether there is work to do. -/
def pass (σ : Nat → Turn) (fuel : Nat) (mem : List Int) (count : Nat) (first : Bool) :
    Nat → Nat → Bool → Bool → Pool → C ((Option WaitErr × Bool) × Pool)
  | 0, _, _, _, _ => .error .diverge
  | n + 1, i, todo, did, p =>
    if i < count then do
      let remaining := if maxWait > count - i then count - i else maxWait
      let g ← gather σ mem remaining i p
      let r ← work σ g.1 did g.2
      if r.1.1 = [] then pass σ fuel mem count first n (i + maxWait) todo r.1.2 r.2
      else do
        let e ← r.2.waitEvents σ true r.1.1 (if r.1.2 || first then .poll else .infinite) fuel
        if e.1.1 = .ok then do
          let p ← markSlots σ r.1.1 e.2
          pass σ fuel mem count first n (i + maxWait) true r.1.2 p
        else if e.1.1 ≠ .etimedout then .ok ((some e.1.1, true), e.2)
        else pass σ fuel mem count first n (i + maxWait) true r.1.2 e.2
    else .ok ((none, todo), p)

/-- `tma_impl_wait_all_infinite`, tm_async.h lines 1264 to 1363; `.diverge` if it has not returned after `fuel` passes -/
def waitAllInfinite (σ : Nat → Turn) (fuel : Nat) (mem : List Int) (count : Nat) : Nat → Bool → Pool → C (WaitResult × Pool)
  | 0, _, _ => .error .diverge
  | n + 1, first, p => do
    let x ← pass σ fuel mem count first (count + 1) 0 false false p
    match x.1.1 with
    | some ec => .ok (⟨0, ec⟩, x.2)
    | none => if x.1.2 then waitAllInfinite σ fuel mem count n false x.2 else .ok (⟨0, .ok⟩, x.2)

/-- The result, or that the last way to wait is taken, which is not modelled. -/
inductive Waited where
  | result (r : WaitResult)
  | slow
deriving DecidableEq, Repr

/-- `tma_impl_wait_multiple`, tm_async.h lines 1390 to 1768, for the four functions in lines 2279 to 2296. The array of the caller has the length
that the caller says. -/
def waitMultiple (σ : Nat → Turn) (fuel : Nat) (mem : List Int) (all : Bool) (limit : Limit) (p : Pool) : C (Waited × Pool) := do
  assert (decide (0 < mem.length))
  assert (mem.any handleValid)
  if limit = .poll then do
    let x ← (if all then pollAll σ fuel mem mem.length (mem.length + 1) 0 ⟨0, .ok⟩ p
      else pollAny σ fuel mem mem.length (mem.length + 1) 0 .processed false ⟨0, .ok⟩ p)
    .ok (.result x.1, x.2)
  else if limit = .infinite ∧ all = true then do
    let x ← waitAllInfinite σ fuel mem mem.length fuel true p
    .ok (.result x.1, x.2)
  else do
    let x ← waitChunk σ fuel mem 0 mem.length all limit p
    .ok (if x.1.1 = .processed then .result x.1.2 else .slow, x.2)

end Tm.Async
