import Verif.Async.Spec
import Mathlib.Data.List.Induction

/-!
# Where a work is

Every work that was not freed is in exactly one place.
-/

namespace Tm.Async

/-! ## Counting -/

theorem sum_set {α : Type} (f : α → Nat) (l : List α) (i : Nat) (w w' : α) (h : l[i]? = some w) :
    ((l.set i w').map f).sum + f w = (l.map f).sum + f w' := by
  induction l generalizing i with
  | nil => simp at h
  | cons a l ih =>
    cases i with
    | zero => simp at h; subst h; simp; omega
    | succ i => simp only [List.getElem?_cons_succ] at h; have := ih i h; simp only [List.set_cons_succ, List.map_cons, List.sum_cons]; omega

theorem count_set {α : Type} [BEq α] [LawfulBEq α] [DecidableEq α] (l : List α) (i : Nat) (x x' y : α) (h : l[i]? = some x) :
    (l.set i x').count y + (if x = y then 1 else 0) = l.count y + (if x' = y then 1 else 0) := by
  induction l generalizing i with
  | nil => simp at h
  | cons a l ih =>
    cases i with
    | zero =>
      simp at h; subst h
      by_cases h1 : a = y <;> by_cases h2 : x' = y <;> simp [List.count_cons, h1, h2]
    | succ i => simp at h; have := ih i h; simp [List.count_cons]; omega

theorem sum_zero {α : Type} (f : α → Nat) (l : List α) (h : ∀ a ∈ l, f a = 0) : (l.map f).sum = 0 := by
  induction l with
  | nil => rfl
  | cons a l ih =>
    simp only [List.map_cons, List.sum_cons, h a List.mem_cons_self, ih fun b hb => h b (List.mem_cons_of_mem _ hb)]

theorem le_sum {α : Type} (f : α → Nat) (l : List α) (a : α) (h : a ∈ l) : f a ≤ (l.map f).sum := by
  induction l with
  | nil => exact nomatch h
  | cons b l ih =>
    simp only [List.map_cons, List.sum_cons]
    rcases List.mem_cons.mp h with rfl | h
    · omega
    · have := ih h
      omega

/-! ## The places -/

def PopStage.waits (s : Nat) : PopStage → Nat
  | .release (some t) => if t = s then 1 else 0
  | _ => 0

def Exec.waits (s : Nat) : Exec → Nat
  | .start t => if t = s then 1 else 0
  | _ => 0

def Exec.runs (s : Nat) : Exec → Nat
  | .running t _ => if t = s then 1 else 0
  | .mark t _ => if t = s then 1 else 0
  | _ => 0

def Exec.sets (s : Nat) : Exec → Nat
  | .set t => if t = s then 1 else 0
  | _ => 0

def WorkerPc.waits (s : Nat) : WorkerPc → Nat
  | .wait => 0
  | .pop p => p.waits s
  | .exec e => e.waits s

def WorkerPc.runs (s : Nat) : WorkerPc → Nat
  | .exec e => e.runs s
  | _ => 0

def WorkerPc.sets (s : Nat) : WorkerPc → Nat
  | .exec e => e.sets s
  | _ => 0

def DispatcherPc.waits (s : Nat) : DispatcherPc → Nat
  | .pop p => p.waits s
  | .append t => if t = s then 1 else 0
  | _ => 0

/-- The slot has not been put into a queue yet. -/
def PushStage.holds : PushStage → Bool
  | .wait => true
  | .load => true
  | .cas _ => true
  | .put _ => true
  | .store _ => false
  | .release => false

def MainPc.waits (s : Nat) : MainPc → Nat
  | .push _ t p => if t = s ∧ p.holds then 1 else 0
  | .exec e => e.waits s
  | .freeEnd t true => if t = s then 1 else 0
  | _ => 0

def MainPc.runs (s : Nat) : MainPc → Nat
  | .exec e => e.runs s
  | _ => 0

def MainPc.sets (s : Nat) : MainPc → Nat
  | .exec e => e.sets s
  | _ => 0

def MainPc.pushing (s : Nat) : MainPc → Bool
  | .push _ t _ => decide (t = s)
  | _ => false

/-- How many places hold the slot before its work is started. -/
def State.waits (st : State) (s : Nat) : Nat :=
  st.work.ring.count (some s) + st.dispatch.ring.count (some s) + st.array.count s +
    (st.workers.map (WorkerPc.waits s)).sum + st.dispatcher.waits s + st.main.waits s

/-- How many threads execute the work of the slot. -/
def State.runs (st : State) (s : Nat) : Nat := (st.workers.map (WorkerPc.runs s)).sum + st.main.runs s

/-- How many threads are about to signal the event of the slot. -/
def State.sets (st : State) (s : Nat) : Nat := (st.workers.map (WorkerPc.sets s)).sum + st.main.sets s

def State.slot (st : State) (s : Nat) : Slot := st.slots.getD s {}

/-- The work of the slot is not handed to the worker threads. -/
def home (slot : Slot) (pushing : Bool) : Nat := if slot.ringPos < 0 ∧ pushing = false then 1 else 0

/-- What holds of a slot, given in how many places it waits, how many threads execute its work and how many are about to
signal its event. -/
def SlotOk (slot : Slot) (w r t : Nat) (pushing : Bool) (jobs : Nat) (log : List Event) : Prop :=
  match slot.job with
  | none => w = 0 ∧ r = 0 ∧ t = 0 ∧ slot.signaled = false ∧ slot.event = false
  | some j => j < jobs ∧ w + r + home slot pushing + slot.signaled.toNat = 1 ∧
      log.count (.started j) = r + slot.signaled.toNat ∧ (slot.signaled = true → .finished j ∈ log) ∧
      (slot.event = true → slot.signaled = true) ∧ (0 < t → slot.signaled = true) ∧
      (slot.signaled = true → slot.event = true ∨ 0 < t) ∧ slot.progress = lastReport j log ∧
      (slot.cancelled = true ↔ .cancelled j ∈ log)

/-- What holds of a thread that executes a work. -/
def ExecOk (st : State) : Exec → Prop
  | .running s j => (st.slot s).job = some j
  | .mark s j => (st.slot s).job = some j ∧ .finished j ∈ st.log
  | _ => True

def WorkerOk (st : State) : WorkerPc → Prop
  | .exec e => ExecOk st e
  | _ => True

def MainOk (st : State) : MainPc → Prop
  | .idle => True
  | .push _ s p => (st.slot s).job.isSome ∧ (p = .release ↔ ¬ (st.slot s).ringPos < 0)
  | .waiting s _ => (st.slot s).job.isSome
  | .steal s => (st.slot s).job.isSome
  | .exec e => ExecOk st e
  | .block s timed => (st.slot s).job.isSome ∧ (timed = false → ¬ (st.slot s).ringPos < 0)
  | .mark s ok => (st.slot s).job.isSome ∧ ok = true ∧ (st.slot s).signaled = true
  | .free s => (st.slot s).job.isSome
  | .freeSteal s => (st.slot s).job.isSome ∧ ¬ (st.slot s).ringPos < 0
  | .freeBlock s => (st.slot s).job.isSome ∧ ¬ (st.slot s).ringPos < 0
  | .freeMark s => (st.slot s).job.isSome ∧ (st.slot s).signaled = true
  | .freeEnd s taken => (st.slot s).job.isSome ∧ (taken = true → ¬ (st.slot s).ringPos < 0)

/-- The invariant of calm runs. -/
structure Inv (st : State) : Prop where
  slots : ∀ s, SlotOk (st.slot s) (st.waits s) (st.runs s) (st.sets s) (st.main.pushing s) st.jobs st.log
  workers : ∀ w ∈ st.workers, WorkerOk st w
  main : MainOk st st.main
  distinct : ∀ s t j, (st.slot s).job = some j → (st.slot t).job = some j → s = t
  started : ∀ j, .started j ∈ st.log → j < st.jobs
  reported : ∀ j, st.jobs ≤ j → lastReport j st.log = 0
  cancelled : ∀ j, .cancelled j ∈ st.log → j < st.jobs
  dispatched : ∀ j, .dispatched j ∈ st.log → j < st.jobs ∧
    ((.finished j ∈ st.log ∧ ∃ i, .freed i j ∈ st.log) ∨ ∃ s, (st.slot s).job = some j ∧ ¬ (st.slot s).ringPos < 0)
  freed : ∀ i j, .freed i j ∈ st.log → j < st.jobs ∧ ∀ s, (st.slot s).job ≠ some j
  once : Once st.log
  waits : WaitsHold st.log
  frees : FreesHold st.log
  progress : ProgressHolds st.log
  cancel : CancelHolds st.log

/-! ## Histories -/

theorem split_cons {e x : Event} {log newer older : List Event} (h : e :: log = newer ++ x :: older) :
    (newer = [] ∧ e = x ∧ log = older) ∨ ∃ newer', newer = e :: newer' ∧ log = newer' ++ x :: older := by
  cases newer with
  | nil => simp at h; exact .inl ⟨rfl, h.1, h.2⟩
  | cons a newer => simp at h; exact .inr ⟨newer, by rw [h.1], h.2⟩

theorem waitsHold_cons {e : Event} {log : List Event} (h : WaitsHold log) (he : ∀ j, e = .waited j → .finished j ∈ log) :
    WaitsHold (e :: log) := by
  intro newer j older hl
  rcases split_cons hl with ⟨-, rfl, rfl⟩ | ⟨newer', -, hl⟩
  · exact he j rfl
  · exact h _ _ _ hl

theorem progressHolds_cons {e : Event} {log : List Event} (h : ProgressHolds log)
    (he : ∀ j v, e = .progress j v → v = lastReport j log) : ProgressHolds (e :: log) := by
  intro newer j v older hl
  rcases split_cons hl with ⟨-, rfl, rfl⟩ | ⟨newer', -, hl⟩
  · exact he j v rfl
  · exact h _ _ _ _ hl

theorem cancelHolds_cons {e : Event} {log : List Event} (h : CancelHolds log)
    (he : ∀ j b, e = .asked j b → (b = true ↔ .cancelled j ∈ log)) : CancelHolds (e :: log) := by
  intro newer j b older hl
  rcases split_cons hl with ⟨-, rfl, rfl⟩ | ⟨newer', -, hl⟩
  · exact he j b rfl
  · exact h _ _ _ _ hl

theorem freesHold_cons {e : Event} {log : List Event} (h : FreesHold log)
    (he : ∀ j, e = .started j → ∀ i, .freed i j ∉ log)
    (hf : ∀ i j, e = .freed i j → .started j ∈ log → .finished j ∈ log) : FreesHold (e :: log) := by
  intro newer i j older hl
  rcases split_cons hl with ⟨rfl, rfl, rfl⟩ | ⟨newer', rfl, hk⟩
  · exact ⟨hf i j rfl, by simp⟩
  · refine ⟨(h _ _ _ _ hk).1, ?_⟩
    intro hm
    rcases List.mem_cons.mp hm with hm | hm
    · exact he j hm.symm i (by rw [hk]; simp)
    · exact (h _ _ _ _ hk).2 hm

theorem once_cons {e : Event} {log : List Event} (h : Once log) (he : ∀ j, e = .started j → .started j ∉ log) :
    Once (e :: log) := by
  intro j
  by_cases hj : e = .started j
  · subst hj
    have := he j rfl
    simp [List.count_eq_zero.mpr this]
  · rw [List.count_cons_of_ne hj]; exact h j

/-- What has to hold when an event happens. -/
structure EventOk (st st' : State) (e : Event) : Prop where
  started : ∀ j, e = .started j → j < st.jobs ∧ .started j ∉ st.log ∧ ∀ i, .freed i j ∉ st.log
  reported : ∀ j v, e = .reported j v → j < st.jobs
  cancelled : ∀ j, e = .cancelled j → j < st.jobs
  dispatched : ∀ j, e = .dispatched j → j < st.jobs ∧ ∃ s, (st'.slot s).job = some j ∧ ¬ (st'.slot s).ringPos < 0
  waited : ∀ j, e = .waited j → .finished j ∈ st.log
  progress : ∀ j v, e = .progress j v → v = lastReport j st.log
  asked : ∀ j b, e = .asked j b → (b = true ↔ .cancelled j ∈ st.log)
  freed : ∀ i j, e ≠ .freed i j

theorem lastReport_append (j : Nat) (e : Event) (log : List Event) (h : ∀ v, e ≠ .reported j v) :
    lastReport j (e :: log) = lastReport j log := by
  cases e with
  | reported k v =>
    have : k ≠ j := fun hk => h v (by rw [hk])
    simp [lastReport, this]
  | _ => rfl

/-- A step that happens without an event. -/
theorem Inv.move {st st' : State} (h : Inv st) (hlog : st'.log = st.log) (hjobs : st'.jobs = st.jobs)
    (hjob : ∀ s, (st'.slot s).job = (st.slot s).job)
    (hpos : ∀ s, ¬ (st.slot s).ringPos < 0 → ¬ (st'.slot s).ringPos < 0)
    (hslots : ∀ s, SlotOk (st'.slot s) (st'.waits s) (st'.runs s) (st'.sets s) (st'.main.pushing s) st'.jobs st'.log)
    (hworkers : ∀ w ∈ st'.workers, WorkerOk st' w) (hmain : MainOk st' st'.main) : Inv st' where
  slots := hslots
  workers := hworkers
  main := hmain
  distinct := by simpa only [hjob] using h.distinct
  started := by simpa only [hlog, hjobs] using h.started
  reported := by simpa only [hlog, hjobs] using h.reported
  cancelled := by simpa only [hlog, hjobs] using h.cancelled
  dispatched := by
    intro j hj
    rw [hlog] at hj
    obtain ⟨h1, h2⟩ := h.dispatched j hj
    refine ⟨hjobs ▸ h1, ?_⟩
    rcases h2 with h2 | ⟨s, h2, h3⟩
    · exact .inl (hlog ▸ h2)
    · exact .inr ⟨s, by rw [hjob]; exact h2, hpos s h3⟩
  freed := by simpa only [hlog, hjobs, hjob] using h.freed
  once := hlog ▸ h.once
  waits := hlog ▸ h.waits
  frees := hlog ▸ h.frees
  progress := hlog ▸ h.progress
  cancel := hlog ▸ h.cancel

/-- A step that happens with an event. -/
theorem Inv.happen {st st' : State} (h : Inv st) (e : Event) (hlog : st'.log = e :: st.log) (hjobs : st'.jobs = st.jobs)
    (hjob : ∀ s, (st'.slot s).job = (st.slot s).job)
    (hpos : ∀ s, ¬ (st.slot s).ringPos < 0 → ¬ (st'.slot s).ringPos < 0)
    (hslots : ∀ s, SlotOk (st'.slot s) (st'.waits s) (st'.runs s) (st'.sets s) (st'.main.pushing s) st'.jobs st'.log)
    (hworkers : ∀ w ∈ st'.workers, WorkerOk st' w) (hmain : MainOk st' st'.main) (he : EventOk st st' e) : Inv st' where
  slots := hslots
  workers := hworkers
  main := hmain
  distinct := by simpa only [hjob] using h.distinct
  started := by
    intro j hj
    rw [hlog] at hj
    rw [hjobs]
    rcases List.mem_cons.mp hj with hj | hj
    · exact (he.started j hj.symm).1
    · exact h.started j hj
  reported := by
    intro j hj
    rw [hjobs] at hj
    rw [hlog, lastReport_append, h.reported j hj]
    intro v hv
    exact absurd (he.reported j v hv) (by omega)
  cancelled := by
    intro j hj
    rw [hlog] at hj
    rw [hjobs]
    rcases List.mem_cons.mp hj with hj | hj
    · exact he.cancelled j hj.symm
    · exact h.cancelled j hj
  dispatched := by
    intro j hj
    rw [hlog] at hj
    rcases List.mem_cons.mp hj with hj | hj
    · obtain ⟨h1, h2⟩ := he.dispatched j hj.symm
      exact ⟨hjobs ▸ h1, .inr h2⟩
    · obtain ⟨h1, h2⟩ := h.dispatched j hj
      refine ⟨hjobs ▸ h1, ?_⟩
      rcases h2 with h2 | ⟨s, h2, h3⟩
      · exact .inl (by rw [hlog]; exact ⟨List.mem_cons_of_mem _ h2.1, h2.2.imp fun _ => List.mem_cons_of_mem _⟩)
      · exact .inr ⟨s, by rw [hjob]; exact h2, hpos s h3⟩
  freed := by
    intro i j hj
    rw [hlog] at hj
    rcases List.mem_cons.mp hj with hj | hj
    · exact absurd hj.symm (he.freed i j)
    · simpa only [hjobs, hjob] using h.freed i j hj
  once := by rw [hlog]; exact once_cons h.once fun j hj => (he.started j hj).2.1
  waits := by rw [hlog]; exact waitsHold_cons h.waits he.waited
  frees := by
    rw [hlog]
    exact freesHold_cons h.frees (fun j hj => (he.started j hj).2.2) (fun i j hj => absurd hj (he.freed i j))
  progress := by rw [hlog]; exact progressHolds_cons h.progress he.progress
  cancel := by rw [hlog]; exact cancelHolds_cons h.cancel he.asked

/-! ## A single slot -/

/-- An event that does not concern the slot. -/
def Unrelated (slot : Slot) (e : Event) : Prop :=
  ∀ j, slot.job = some j → e ≠ .started j ∧ (∀ v, e ≠ .reported j v) ∧ e ≠ .cancelled j

theorem SlotOk.say {slot : Slot} {w r t : Nat} {p : Bool} {jobs : Nat} {log : List Event} {e : Event}
    (h : SlotOk slot w r t p jobs log) (he : Unrelated slot e) : SlotOk slot w r t p jobs (e :: log) := by
  unfold SlotOk at h ⊢
  cases hj : slot.job with
  | none => simpa [hj] using h
  | some j =>
    rw [hj] at h
    dsimp only at h ⊢
    obtain ⟨h1, h2, h3, h4, h5, h6, h7, h8, h9⟩ := h
    obtain ⟨e1, e2, e3⟩ := he j hj
    refine ⟨h1, h2, ?_, fun hs => List.mem_cons_of_mem _ (h4 hs), h5, h6, h7, ?_, ?_⟩
    · rw [List.count_cons_of_ne e1]; exact h3
    · rw [lastReport_append _ _ _ e2]; exact h8
    · rw [h9]; simp [Ne.symm e3]

theorem SlotOk.transfer {slot : Slot} {w r t w' r' t' : Nat} {p p' : Bool} {jobs : Nat} {log : List Event}
    (h : SlotOk slot w r t p jobs log) (hw : w' + home slot p' = w + home slot p)
    (hn : slot.job = none → w' = w) (hr : r' = r) (ht : t' = t) :
    SlotOk slot w' r' t' p' jobs log := by
  subst hr ht
  unfold SlotOk at h ⊢
  cases hj : slot.job with
  | none => rw [hj] at h; dsimp only at h ⊢; exact ⟨by rw [hn hj]; exact h.1, h.2⟩
  | some j =>
    rw [hj] at h
    dsimp only at h ⊢
    refine ⟨h.1, ?_, h.2.2⟩
    have := h.2.1
    omega

end Tm.Async
