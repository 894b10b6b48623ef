import Verif.Basic

/-!
# Model of the thread pool of tm_async.h (Windows implementation)

Any number of worker threads, the dispatch thread and the main thread (the only one that may call the library) run
interleaved. A step of the model is one access to shared memory or to an object of the operating system: a load, a
store, a compare and swap or an exchange of an atomic variable, a wait for or a release of a semaphore, a wait for or a
signal of an event. The accesses are sequentially consistent. All of the atomics of the library are, on the only
architecture it supports (lines 510 to 523), plain accesses of volatile variables or interlocked operations.

Fields marked as ghost are not in the code. They record what happened and are never read by the model's own decisions.

Not modelled: creating and destroying the pool, the setup procedure, the storage of a work slot and waiting for more
than one handle.
-/

namespace Tm.Async

/-- `TMA_MAX_WORK_RING`, tm_async.h line 709. -/
def ringSize : Nat := 256

/-- `TMA_SLOTS_COUNT`, tm_async.h line 709. -/
def blockSize : Nat := 256

/-- `tma_work_slot`, tm_async.h lines 711 to 724, without its storage and without `pending`, which is used by
`tma_wait_all` only. The procedure and its context are represented by the number of the work: the n-th work which was
pushed has number n. Whether the event object exists is left out: it is created when the slot is used for the first
time, which is assumed to succeed. Slots are zeroed when they are created (lines 1805 and 2099). -/
structure Slot where
  /-- `procedure` and `context`, `none` for a null pointer -/
  job : Option Nat := none
  /-- whether `event` is signaled -/
  event : Bool := false
  /-- `event_signaled` -/
  signaled : Bool := false
  /-- `work_ring_pos` -/
  ringPos : Int := 0
  /-- `progress_report` -/
  progress : Int := 0
  /-- `cancelled` -/
  cancelled : Bool := false
deriving DecidableEq, Repr

/-- `tma_work_queue`, tm_async.h lines 753 to 759. A slot is represented by its index. -/
structure Queue where
  ring : List (Option Nat)
  readPos : Nat
  writePos : Nat
  /-- count of `read_semaphore` -/
  readSem : Nat
  /-- count of `write_semaphore` -/
  writeSem : Nat
  /-- ghost: how often a write position was handed out -/
  written : Nat
  /-- ghost: how often a read position was handed out -/
  taken : Nat
deriving DecidableEq, Repr

/-- `tma_work_slots`, tm_async.h lines 746 to 751, without the slots themselves. The eight masks of 32 bits are
represented by one list of 256 flags. -/
structure Block where
  avail : List Bool
  count : Nat
deriving DecidableEq, Repr

/-- Where a thread is in `tma_impl_push`, tm_async.h lines 848 to 853, and `tma_impl_try_push`, lines 827 to 846. -/
inductive PushStage where
  /-- before the wait for the write semaphore, line 849 -/
  | wait
  /-- before the load of the write position, line 830 -/
  | load
  /-- before the compare and swap of the write position, line 833, which was seen to be `pos` -/
  | cas (pos : Nat)
  /-- before the compare and swap of the entry of the ring, line 840 -/
  | put (pos : Nat)
  /-- before the store of the position to the slot, line 841 -/
  | store (pos : Nat)
  /-- before the release of the read semaphore, line 842 -/
  | release
deriving DecidableEq, Repr

/-- Where a thread is in `tma_impl_pop_force`, tm_async.h lines 854 to 870. -/
inductive PopStage where
  /-- before the load of the read position, line 857 -/
  | load
  /-- before the compare and swap of the read position, line 860, which was seen to be `pos` -/
  | cas (pos : Nat)
  /-- before the exchange of the entry of the ring, line 867 -/
  | swap (pos : Nat)
  /-- before the release of the write semaphore, line 868 -/
  | release (result : Option Nat)
deriving DecidableEq, Repr

/-- Where a thread is in `tma_impl_execute`, tm_async.h lines 936 to 949. -/
inductive Exec where
  /-- before the call of the procedure, line 943 -/
  | start (s : Nat)
  /-- inside of the procedure -/
  | running (s : Nat) (job : Nat)
  /-- before the store to `event_signaled`, line 944 -/
  | mark (s : Nat) (job : Nat)
  /-- before the call of `SetEvent`, line 946 -/
  | set (s : Nat)
deriving DecidableEq, Repr

/-- Where a worker thread is in `tma_worker_procedure`, tm_async.h lines 951 to 991. -/
inductive WorkerPc where
  /-- at the wait, line 967 -/
  | wait
  /-- in `tma_impl_pop_force`, line 970 -/
  | pop (p : PopStage)
  /-- in `tma_impl_execute`, line 971 -/
  | exec (e : Exec)
deriving DecidableEq, Repr

/-- Where the dispatch thread is in `tma_dispatch_thread_procedure`, tm_async.h lines 1018 to 1077. -/
inductive DispatcherPc where
  /-- at the wait, line 1034 -/
  | wait
  /-- in `tma_impl_pop_force`, line 1038 -/
  | pop (p : PopStage)
  /-- at `tma_impl_push_dispatch_array`, line 1040 -/
  | append (s : Nat)
  /-- the thread has ended, line 1073 -/
  | ended
deriving DecidableEq, Repr

/-- Which of the two queues is meant. -/
inductive Target where
  | work
  | dispatch
deriving DecidableEq, Repr

/-- Where the main thread is in the function it has called. -/
inductive MainPc where
  /-- outside of the library -/
  | idle
  /-- in `tma_impl_dispatch_async_work`, tm_async.h lines 1079 to 1089 -/
  | push (q : Target) (s : Nat) (p : PushStage)
  /-- in `tma_impl_wait_single`, before the load of `event_signaled`, line 1111 -/
  | waiting (s : Nat) (timed : Bool)
  /-- in `tma_impl_wait_single`, at `tma_impl_pop_slot`, line 1112 -/
  | steal (s : Nat)
  /-- in `tma_impl_wait_single`, at `tma_impl_execute`, line 1114 -/
  | exec (e : Exec)
  /-- in `tma_impl_wait_single`, at the wait for the event, line 1119 -/
  | block (s : Nat) (timed : Bool)
  /-- in `tma_impl_wait_single`, before the store to `event_signaled`, line 1121 -/
  | mark (s : Nat) (ok : Bool)
  /-- in `tma_impl_free_async_work`, before the loads of line 1890 -/
  | free (s : Nat)
  /-- in `tma_impl_free_async_work`, at `tma_impl_pop_slot`, line 1891 -/
  | freeSteal (s : Nat)
  /-- in `tma_impl_free_async_work`, at the wait for the event, line 1894 -/
  | freeBlock (s : Nat)
  /-- in `tma_impl_free_async_work`, before the store to `event_signaled`, line 1895 -/
  | freeMark (s : Nat)
  /-- in `tma_impl_free_async_work`, before line 1902. Ghost: whether the slot was taken out of the queue in line
  1891. -/
  | freeEnd (s : Nat) (taken : Bool)
deriving DecidableEq, Repr

/-- What a user can observe. -/
inductive Event where
  /-- `tma_push_async_work` made the work `job` and gave it the handle of the index `i` -/
  | pushed (i job : Nat)
  /-- `tma_push_async_work` returned a handle that holds an error code -/
  | rejected (ec : Errc)
  /-- the work was handed to the worker threads -/
  | dispatched (job : Nat)
  /-- the work could not be put into the work queue -/
  | overflowed (job : Nat)
  /-- handing the work to the worker threads failed -/
  | undispatched (job : Nat)
  /-- the procedure of the work was called -/
  | started (job : Nat)
  /-- the procedure of the work returned -/
  | finished (job : Nat)
  /-- the procedure of the work called `tma_report_progress` -/
  | reported (job : Nat) (value : Int)
  /-- `tma_get_progress` returned `value` -/
  | progress (job : Nat) (value : Int)
  /-- `tma_cancel` was called -/
  | cancelled (job : Nat)
  /-- the procedure of the work called `tma_is_cancelled`, which returned `answer` -/
  | asked (job : Nat) (answer : Bool)
  /-- `tma_wait_single` or `tma_wait_single_for` returned `TM_OK` -/
  | waited (job : Nat)
  /-- `tma_wait_single_for` returned `TM_ETIMEDOUT` -/
  | timedOut (job : Nat)
  /-- `tma_free_async_work` has freed the work `job`, whose handle had the index `i` -/
  | freed (i job : Nat)
deriving DecidableEq, Repr

/-- `tma_thread_pool`, tm_async.h lines 774 to 791, together with where each of the threads is. -/
structure State where
  work : Queue
  dispatch : Queue
  /-- `dispatch_array` -/
  array : List Nat
  blocks : List Block
  slots : List Slot
  main : MainPc
  workers : List WorkerPc
  dispatcher : DispatcherPc
  /-- the process has ended -/
  exited : Bool
  /-- ghost: how many works were pushed -/
  jobs : Nat
  /-- ghost: what happened, the newest event first -/
  log : List Event
deriving DecidableEq, Repr

/-- `tma_impl_make_work_queue`, tm_async.h lines 886 to 897. -/
def emptyQueue : Queue :=
  { ring := List.replicate ringSize none, readPos := 0, writePos := 0, readSem := 0, writeSem := ringSize,
    written := 0, taken := 0 }

/-- `tma_impl_init_work_slots`, tm_async.h lines 1779 to 1784. -/
def freshBlock : Block := { avail := List.replicate blockSize true, count := blockSize }

/-- The state after `tma_initialize_async_thread_pool(n)` for a positive n, tm_async.h lines 2092 to 2200, once each of
the threads has arrived at its wait. -/
def init (n : Nat) : State :=
  { work := emptyQueue, dispatch := emptyQueue, array := [], blocks := [freshBlock],
    slots := List.replicate blockSize {}, main := .idle, workers := List.replicate n .wait, dispatcher := .wait,
    exited := false, jobs := 0, log := [] }

/-- The queue that is meant. -/
def State.queue (st : State) : Target → Queue
  | .work => st.work
  | .dispatch => st.dispatch

/-- The state with the given queue. -/
def State.withQueue (st : State) : Target → Queue → State
  | .work, q => { st with work := q }
  | .dispatch, q => { st with dispatch := q }

/-- The state with one more event in its history. -/
def State.say (st : State) (e : Event) : State := { st with log := e :: st.log }

/-- The number of the work in a slot. The slot of a handle that is in use has one. -/
def State.jobOf (st : State) (s : Nat) : C Nat := do
  let slot ← rd st.slots s
  match slot.job with
  | some j => .ok j
  | none => .error .invalid

/-- The state after a store to the fields of a slot. -/
def State.update (st : State) (s : Nat) (f : Slot → Slot) : C State := do
  let slot ← rd st.slots s
  .ok { st with slots := st.slots.set s (f slot) }

/-- `ReleaseSemaphore`, which fails if the count is at its maximum already. The result is ignored in tm_async.h lines
842 and 868. -/
def release (count : Nat) : Nat := if count < ringSize then count + 1 else count

/-- `(pos + 1) % TMA_MAX_WORK_RING`, tm_async.h lines 832 and 859. -/
def next (pos : Nat) : Nat := (pos + 1) % ringSize

/-- One step of `tma_impl_pop_force`, tm_async.h lines 854 to 870: the queue afterwards, and where the thread is then
or what the function returned. -/
def popStep (q : Queue) : PopStage → C (Queue × (PopStage ⊕ Option Nat))
  | .load => .ok (q, .inl (.cas q.readPos))
  | .cas pos =>
    if q.readPos = pos then .ok ({ q with readPos := next pos, taken := q.taken + 1 }, .inl (.swap pos))
    else .ok (q, .inl (.cas q.readPos))
  | .swap pos => do
    let r ← rd q.ring pos
    .ok ({ q with ring := q.ring.set pos none }, .inl (.release r))
  | .release r => .ok ({ q with writeSem := release q.writeSem }, .inr r)

/-- One step of `tma_impl_execute`, tm_async.h lines 936 to 949: the state afterwards, and where the thread is then
unless the function returned. -/
def execStep (st : State) : Exec → C (State × Option Exec)
  | .start s => do
    let slot ← rd st.slots s
    match slot.job with
    | none => .error .assertion
    | some j => .ok (st.say (.started j), some (.running s j))
  | .running s j => .ok (st.say (.finished j), some (.mark s j))
  | .mark s _ => do
    let st ← st.update s fun slot => { slot with signaled := true }
    .ok (st, some (.set s))
  | .set s => do
    let st ← st.update s fun slot => { slot with event := true }
    .ok (st, none)

/-- One step of a worker thread, tm_async.h lines 951 to 991: the state afterwards without the change of where this
thread is, and where it is then. `none` if the thread has to wait. The shutdown event is never signaled. -/
def workerStep (st : State) : WorkerPc → C (Option (State × WorkerPc))
  | .wait =>
    if st.work.readSem = 0 then .ok none
    else .ok (some ({ st with work := { st.work with readSem := st.work.readSem - 1 } }, .pop .load))
  | .pop p => do
    let (q, r) ← popStep st.work p
    match r with
    | .inl p => .ok (some ({ st with work := q }, .pop p))
    | .inr none => .ok (some ({ st with work := q }, .wait))
    | .inr (some s) => .ok (some ({ st with work := q }, .exec (.start s)))
  | .exec e => do
    let (st, e) ← execStep st e
    match e with
    | some e => .ok (some (st, .exec e))
    | none => .ok (some (st, .wait))

/-- `TM_ARRAY_COUNT(sbo)`, tm_async.h lines 762 and 2114. -/
def arrayCapacity : Nat := 16

/-- `tma_impl_push_dispatch_array`, tm_async.h lines 993 to 1010, and its use in lines 1040 to 1045. If there is no room
the function asks for memory. `mem` says whether it gets any. It returns false if it does, upon which the process exits.
If it does not it writes through a null pointer. The capacity is never changed. -/
def appendStep (st : State) (s : Nat) (mem : Bool) : C State :=
  if st.array.length + 1 ≥ arrayCapacity then
    if mem then .ok { st with exited := true } else .error .invalid
  else .ok { st with array := st.array ++ [s], dispatcher := .wait }

/-- One step of the dispatch thread, tm_async.h lines 1018 to 1077. The thread waits for three objects if there is work
in the array. `WaitForMultipleObjects` returns `WAIT_OBJECT_0 + 2` if it has decremented the third of them, for which
there is no case: the thread ends. The request event, which is used when the pool is destroyed, is never signaled. -/
def dispatcherStep (st : State) (mem : Bool) : C (Option State) :=
  match st.dispatcher with
  | .wait =>
    if st.dispatch.readSem ≠ 0 then
      .ok (some { st with dispatch := { st.dispatch with readSem := st.dispatch.readSem - 1 }, dispatcher := .pop .load })
    else if st.array ≠ [] ∧ st.work.writeSem ≠ 0 then
      .ok (some { st with work := { st.work with writeSem := st.work.writeSem - 1 }, dispatcher := .ended })
    else .ok none
  | .pop p => do
    let (q, r) ← popStep st.dispatch p
    match r with
    | .inl p => .ok (some { st with dispatch := q, dispatcher := .pop p })
    | .inr none => .ok (some { st with dispatch := q, dispatcher := .wait })
    | .inr (some s) => .ok (some { st with dispatch := q, dispatcher := .append s })
  | .append s => do
    let st ← appendStep st s mem
    .ok (some st)
  | .ended => .ok none

/-- The end of `tma_impl_push` without success: after the work queue the dispatch queue is tried, tm_async.h lines 1086
to 1088. -/
def pushFailed (st : State) (q : Target) (s : Nat) : C State := do
  let j ← st.jobOf s
  match q with
  | .work => .ok { st.say (.overflowed j) with main := .push .dispatch s .wait }
  | .dispatch => .ok { st.say (.undispatched j) with main := .idle }

/-- One step of `tma_impl_dispatch_async_work`, tm_async.h lines 1079 to 1089, in `tma_impl_push`, lines 827 to 853. The
wait for the work queue does not block, that for the dispatch queue does. -/
def pushStep (st : State) (q : Target) (s : Nat) : PushStage → C (Option State)
  | .wait =>
    if (st.queue q).writeSem = 0 then
      match q with
      | .work => do
        let st ← pushFailed st q s
        .ok (some st)
      | .dispatch => .ok none
    else
      .ok (some { st.withQueue q { st.queue q with writeSem := (st.queue q).writeSem - 1 } with
        main := .push q s .load })
  | .load => .ok (some { st with main := .push q s (.cas (st.queue q).writePos) })
  | .cas pos =>
    if (st.queue q).writePos = pos then
      .ok (some { st.withQueue q { st.queue q with writePos := next pos, written := (st.queue q).written + 1 } with
        main := .push q s (.put pos) })
    else .ok (some { st with main := .push q s (.cas (st.queue q).writePos) })
  | .put pos => do
    let r ← rd (st.queue q).ring pos
    match r with
    | none =>
      .ok (some { st.withQueue q { st.queue q with ring := (st.queue q).ring.set pos (some s) } with
        main := .push q s (.store pos) })
    | some _ => do
      let st ← pushFailed st q s
      .ok (some st)
  | .store pos => do
    let st ← st.update s fun slot => { slot with ringPos := pos }
    .ok (some { st with main := .push q s .release })
  | .release => do
    let j ← st.jobOf s
    .ok (some { (st.withQueue q { st.queue q with readSem := release (st.queue q).readSem }).say (.dispatched j) with
      main := .idle })

/-- `tma_impl_pop_slot(&pool->work_queue, slot)`, tm_async.h lines 880 to 884: the state afterwards and whether the slot
was taken out of the queue. The load of the position is no step of its own: only the main thread stores to it, because
the dispatch thread never gets to line 1068. -/
def popSlot (st : State) (s : Nat) : C (State × Bool) := do
  let slot ← rd st.slots s
  if slot.ringPos < 0 then .error .oob
  else
    let r ← rd st.work.ring slot.ringPos.toNat
    if r = some s then
      .ok ({ st with work := { st.work with ring := st.work.ring.set slot.ringPos.toNat none } }, true)
    else .ok (st, false)

/-- Lines 1814 to 1825 and 1847 to 1851 of tm_async.h: takes the first available slot of a block. -/
def takeIn (b : Block) : C (Nat × Block) :=
  match b.avail.findIdx? id with
  | none => .error .assertion
  | some k => .ok (k, { avail := b.avail.set k false, count := b.count - 1 })

/-- Lines 1794 to 1828 and 1847 to 1851 of tm_async.h: the index of a slot that is available, and the blocks
afterwards. `base` is the index of the first slot of the first of the given blocks. `mem` says whether memory can be
allocated. -/
def takeSlot (mem : Bool) : List Block → Nat → C (Except Errc (Nat × List Block))
  | [], base =>
    if mem then do
      let (k, b) ← takeIn freshBlock
      .ok (.ok (base + k, [b]))
    else .ok (.error .enomem)
  | b :: bs, base =>
    if b.count = 0 then
      if 2147483647 - base < blockSize then .ok (.error .eoverflow)
      else do
        let r ← takeSlot mem bs (base + blockSize)
        match r with
        | .ok (i, bs) => .ok (.ok (i, b :: bs))
        | .error e => .ok (.error e)
    else do
      let (k, b) ← takeIn b
      .ok (.ok (base + k, b :: bs))

/-- The slots after `tma_impl_push_async_work` has found the slot `i`, tm_async.h lines 1802 to 1811 and 1845: those of
a new block are zeroed, and the slot is initialized by `tma_impl_init_slot`, lines 1770 to 1778. -/
def placeJob (slots : List Slot) (blocks : List Block) (i job : Nat) : C (List Slot) := do
  let all := slots ++ List.replicate (blocks.length * blockSize - slots.length) ({} : Slot)
  let slot ← rd all i
  .ok (all.set i { slot with job := some job, signaled := false, ringPos := -1, progress := 0, cancelled := false })

/-- `tma_impl_push_async_work`, tm_async.h lines 1786 to 1859, up to the dispatch of line 1856. The stores to the slot
are one step: no other thread uses the slot, except for one that is about to signal its event. -/
def pushCall (st : State) (deferred mem : Bool) : C State := do
  let r ← takeSlot mem st.blocks 0
  match r with
  | .error e => .ok (st.say (.rejected e))
  | .ok (i, blocks) => do
    let slots ← placeJob st.slots blocks i st.jobs
    let st := { st.say (.pushed i st.jobs) with slots := slots, blocks := blocks, jobs := st.jobs + 1 }
    if deferred then .ok st else .ok { st with main := .push .work i .wait }

/-- Lines 1873 to 1887 of tm_async.h: the slot to free is not available. -/
def checkTaken (blocks : List Block) (i : Nat) : C Unit :=
  match blocks[i / blockSize]? with
  | none => .error .assertion
  | some b =>
    match b.avail[i % blockSize]? with
    | none => .error .assertion
    | some a => assert (!a)

/-- Line 1910 of tm_async.h: makes a slot available again. The count of available slots stays as it is. -/
def giveBack (blocks : List Block) (i : Nat) : C (List Block) :=
  match blocks[i / blockSize]? with
  | none => .error .invalid
  | some b => .ok (blocks.set (i / blockSize) { b with avail := b.avail.set (i % blockSize) true })

/-- The functions that the main thread can call. Handles are represented by their index. -/
inductive Op where
  /-- `tma_push_async_work`. `mem` says whether memory can be allocated, should it be needed. -/
  | push (deferred mem : Bool)
  /-- `tma_dispatch_async_work` -/
  | dispatch (i : Nat)
  /-- `tma_wait_single` -/
  | wait (i : Nat)
  /-- `tma_wait_single_for` -/
  | waitFor (i : Nat)
  /-- `tma_free_async_work` -/
  | free (i : Nat)
  /-- `tma_get_progress` -/
  | progress (i : Nat)
  /-- `tma_cancel` -/
  | cancel (i : Nat)
deriving DecidableEq, Repr

/-- Whether the handle of the index `i` is in use. -/
def State.live (st : State) (i : Nat) : Bool :=
  match st.slots[i]? with
  | some slot => slot.job.isSome
  | none => false

/-- The main thread calls a function, with a handle that is in use. For `tma_dispatch_async_work` see
`tma_dispatch_async_work_by_handle`, tm_async.h lines 1860 to 1868, for `tma_get_progress` lines 2246 to 2251 and for
`tma_cancel` lines 2258 to 2262. -/
def callStep (st : State) : Op → C (Option State)
  | .push deferred mem => do
    let st ← pushCall st deferred mem
    .ok (some st)
  | .dispatch i =>
    if st.live i then do
      let slot ← rd st.slots i
      if slot.ringPos ≥ 0 then .ok (some st) else .ok (some { st with main := .push .work i .wait })
    else .ok none
  | .wait i => if st.live i then .ok (some { st with main := .waiting i false }) else .ok none
  | .waitFor i => if st.live i then .ok (some { st with main := .waiting i true }) else .ok none
  | .free i =>
    if st.live i then do
      checkTaken st.blocks i
      .ok (some { st with main := .free i })
    else .ok none
  | .progress i =>
    if st.live i then do
      let slot ← rd st.slots i
      let j ← st.jobOf i
      .ok (some (st.say (.progress j slot.progress)))
    else .ok none
  | .cancel i =>
    if st.live i then do
      let j ← st.jobOf i
      let st ← st.update i fun slot => { slot with cancelled := true }
      .ok (some (st.say (.cancelled j)))
    else .ok none

/-- The main thread returns from `tma_impl_wait_single`. -/
def waitReturn (st : State) (s : Nat) (ok : Bool) : C (Option State) := do
  let j ← st.jobOf s
  .ok (some { st.say (if ok then .waited j else .timedOut j) with main := .idle })

/-- The end of `tma_impl_free_async_work`, tm_async.h lines 1899 to 1911. The event is reset and the slot is initialized
in one step. -/
def freeEnd (st : State) (s : Nat) : C (Option State) := do
  let slot ← rd st.slots s
  let j ← st.jobOf s
  assert (slot.signaled || decide (slot.ringPos < 0))
  let blocks ← giveBack st.blocks s
  .ok (some { st.say (.freed s j) with
    slots := st.slots.set s { slot with
      event := false, job := none, signaled := false, ringPos := -1, progress := 0, cancelled := false }
    blocks := blocks, main := .idle })

/-- One step of the main thread inside of the library: `tma_impl_dispatch_async_work`, tm_async.h lines 1079 to 1089,
`tma_impl_wait_single`, lines 1108 to 1123, and `tma_impl_free_async_work`, lines 1869 to 1911. `timeout` says whether
the time of a wait that has a limit is over. -/
def mainStep (st : State) (timeout : Bool) : C (Option State) :=
  match st.main with
  | .idle => .ok none
  | .push q s p => pushStep st q s p
  | .waiting s timed => do
    let slot ← rd st.slots s
    if slot.signaled then waitReturn st s true
    else if timed then .ok (some { st with main := .block s true })
    else .ok (some { st with main := .steal s })
  | .steal s => do
    let (st, ok) ← popSlot st s
    if ok then .ok (some { st with main := .exec (.start s) }) else .ok (some { st with main := .block s false })
  | .exec e => do
    let (st', e') ← execStep st e
    match e', e with
    | some e', _ => .ok (some { st' with main := .exec e' })
    | none, .set s => waitReturn st' s true
    | none, _ => .error .invalid
  | .block s timed => do
    let slot ← rd st.slots s
    if slot.event then .ok (some { st with main := .mark s true })
    else if timed && timeout then .ok (some { st with main := .mark s false })
    else .ok none
  | .mark s ok => do
    let st ← st.update s fun slot => { slot with signaled := true }
    waitReturn st s ok
  | .free s => do
    let slot ← rd st.slots s
    if slot.ringPos ≥ 0 ∧ slot.signaled = false then .ok (some { st with main := .freeSteal s })
    else .ok (some { st with main := .freeEnd s false })
  | .freeSteal s => do
    let (st, ok) ← popSlot st s
    if ok then .ok (some { st with main := .freeEnd s true }) else .ok (some { st with main := .freeBlock s })
  | .freeBlock s => do
    let slot ← rd st.slots s
    if slot.event then .ok (some { st with main := .freeMark s }) else .ok none
  | .freeMark s => do
    let st ← st.update s fun slot => { slot with signaled := true }
    .ok (some { st with main := .freeEnd s false })
  | .freeEnd s _ => freeEnd st s

/-- What a thread executes at the moment, the main thread being `none`. -/
def State.executes (st : State) : Option Nat → Option Exec
  | none =>
    match st.main with
    | .exec e => some e
    | _ => none
  | some i =>
    match st.workers[i]? with
    | some (.exec e) => some e
    | _ => none

/-- The procedure of a work calls `tma_report_progress`, tm_async.h lines 2252 to 2256. -/
def reportStep (st : State) (t : Option Nat) (value : Int) : C (Option State) :=
  match st.executes t with
  | some (.running s j) => do
    let st ← st.update s fun slot => { slot with progress := value }
    .ok (some (st.say (.reported j value)))
  | _ => .ok none

/-- The procedure of a work calls `tma_is_cancelled`, tm_async.h lines 2264 to 2270. -/
def askStep (st : State) (t : Option Nat) : C (Option State) :=
  match st.executes t with
  | some (.running s j) => do
    let slot ← rd st.slots s
    .ok (some (st.say (.asked j slot.cancelled)))
  | _ => .ok none

/-- What can happen next. -/
inductive Act where
  /-- the main thread, being outside of the library, calls a function -/
  | call (op : Op)
  /-- the main thread goes on inside of the library -/
  | main (timeout : Bool)
  /-- a worker thread goes on -/
  | worker (i : Nat)
  /-- the dispatch thread goes on -/
  | dispatcher (mem : Bool)
  /-- the procedure that a thread executes reports its progress -/
  | report (t : Option Nat) (value : Int)
  /-- the procedure that a thread executes asks whether it was cancelled -/
  | ask (t : Option Nat)
deriving DecidableEq, Repr

/-- One step of one of the threads. `none` if this thread cannot make this step now. -/
def step (st : State) (a : Act) : C (Option State) :=
  if st.exited then .ok none
  else match a with
  | .call op => if st.main = .idle then callStep st op else .ok none
  | .main timeout => mainStep st timeout
  | .worker i =>
    match st.workers[i]? with
    | none => .ok none
    | some w => do
      let r ← workerStep st w
      match r with
      | none => .ok none
      | some (st', w') => .ok (some { st' with workers := st.workers.set i w' })
  | .dispatcher mem => dispatcherStep st mem
  | .report t value => reportStep st t value
  | .ask t => askStep st t

/-- Runs a schedule. `none` if one of its steps cannot be made. -/
def run (st : State) : List Act → C (Option State)
  | [] => .ok (some st)
  | a :: as => do
    let r ← step st a
    match r with
    | none => .ok none
    | some st => run st as

/-- `tma_make_async_handle_errc`, tm_async.h lines 800 to 804. -/
def errorHandle (ec : Int) : Int := -(ec - 1)

/-- `tma_make_async_handle_index`, tm_async.h lines 805 to 809. -/
def indexHandle (i : Int) : Int := i + 1

/-- `tma_async_handle_get_index`, tm_async.h line 810. -/
def handleIndex (id : Int) : Int := id - 1

/-- `tma_is_async_handle_valid`, tm_async.h line 205. -/
def handleValid (id : Int) : Bool := decide (id > 0)

/-- `tma_get_error_code`, tm_async.h lines 206 to 208. -/
def handleError (id : Int) : Int := if id ≤ 0 then -(id - 1) else 0

end Tm.Async
