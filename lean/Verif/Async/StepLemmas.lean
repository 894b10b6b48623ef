import Verif.Async.BlockLemmas

/-!
# What each step does to the handles
-/

namespace Tm.Async

/-- An event that concerns no handle. -/
def Event.plain : Event → Bool
  | .pushed _ _ => false
  | .freed _ _ => false
  | _ => true

/-- The handles stay as they are. -/
structure Same (st st' : State) : Prop where
  blocks : st'.blocks = st.blocks
  length : st'.slots.length = st.slots.length
  job : ∀ s, (st'.slot s).job = (st.slot s).job
  jobs : st'.jobs = st.jobs
  log : st'.log = st.log ∨ ∃ e, e.plain = true ∧ st'.log = e :: st.log

theorem Same.of_eq {st st' : State} (h1 : st'.blocks = st.blocks) (h2 : st'.slots = st.slots) (h3 : st'.jobs = st.jobs)
    (h4 : st'.log = st.log) : Same st st' := ⟨h1, by rw [h2], fun s => by rw [slot_eq h2], h3, .inl h4⟩

theorem Same.of_say {st st' : State} (e : Event) (he : e.plain = true) (h1 : st'.blocks = st.blocks)
    (h2 : st'.slots = st.slots) (h3 : st'.jobs = st.jobs) (h4 : st'.log = e :: st.log) : Same st st' :=
  ⟨h1, by rw [h2], fun s => by rw [slot_eq h2], h3, .inr ⟨e, he, h4⟩⟩

theorem update_ok {st st' : State} {s : Nat} {f : Slot → Slot} (h : st.update s f = .ok st') :
    ∃ x, st.slots[s]? = some x ∧ st' = { st with slots := st.slots.set s (f x) } := by
  unfold State.update at h
  obtain ⟨x, hx, h⟩ := bind_ok h
  cases h
  exact ⟨x, rd_ok hx, rfl⟩

theorem Same.of_update {st st1 st' : State} {s : Nat} {f : Slot → Slot} (h : st.update s f = .ok st1)
    (hf : ∀ x, (f x).job = x.job) (h1 : st'.blocks = st1.blocks) (h2 : st'.slots = st1.slots) (h3 : st'.jobs = st1.jobs)
    (h4 : st'.log = st1.log ∨ ∃ e, e.plain = true ∧ st'.log = e :: st1.log) : Same st st' := by
  obtain ⟨x, hx, rfl⟩ := update_ok h
  refine ⟨h1, by rw [h2]; simp, ?_, h3, h4⟩
  intro t
  rw [slot_set hx h2]
  by_cases hst : s = t
  · subst hst; rw [if_pos rfl, hf, slot_of_getElem? hx]
  · rw [if_neg hst]

theorem execStep_same {st st' : State} {e : Exec} {e' : Option Exec} (h : execStep st e = .ok (st', e')) : Same st st' := by
  cases e with
  | start s =>
    simp only [execStep] at h
    obtain ⟨x, hx, h⟩ := bind_ok h
    cases hj : x.job with
    | none => rw [hj] at h; exact nomatch h
    | some j => rw [hj] at h; cases h; exact .of_say (.started j) rfl rfl rfl rfl rfl
  | running s j => cases h; exact .of_say (.finished j) rfl rfl rfl rfl rfl
  | mark s j =>
    simp only [execStep] at h
    obtain ⟨st1, h1, h⟩ := bind_ok h
    cases h
    exact .of_update h1 (fun _ => rfl) rfl rfl rfl (.inl rfl)
  | set s =>
    simp only [execStep] at h
    obtain ⟨st1, h1, h⟩ := bind_ok h
    cases h
    exact .of_update h1 (fun _ => rfl) rfl rfl rfl (.inl rfl)

/-- Only where the threads are and the queues change afterwards. -/
theorem Same.then {st st1 st' : State} (h : Same st st1) (h1 : st'.blocks = st1.blocks) (h2 : st'.slots = st1.slots)
    (h3 : st'.jobs = st1.jobs) (h4 : st'.log = st1.log) : Same st st' :=
  ⟨h1.trans h.blocks, by rw [h2, h.length], fun s => by rw [slot_eq h2, h.job], h3.trans h.jobs, by rw [h4]; exact h.log⟩

theorem workerStep_same {st st' : State} {w w' : WorkerPc} (h : workerStep st w = .ok (some (st', w'))) :
    Same st st' := by
  cases w with
  | wait =>
    simp only [workerStep] at h
    split at h
    · exact nomatch h
    · cases h; exact .of_eq rfl rfl rfl rfl
  | pop p =>
    simp only [workerStep] at h
    obtain ⟨⟨q, r⟩, -, h⟩ := bind_ok h
    dsimp only at h
    split at h <;> (cases h; exact .of_eq rfl rfl rfl rfl)
  | exec e =>
    simp only [workerStep] at h
    obtain ⟨⟨st1, e1⟩, h1, h⟩ := bind_ok h
    dsimp only at h
    split at h <;> (cases h; exact execStep_same h1)

theorem dispatcherStep_same {st st' : State} {mem : Bool} (h : dispatcherStep st mem = .ok (some st')) : Same st st' := by
  unfold dispatcherStep at h
  split at h
  · split at h
    · cases h; exact .of_eq rfl rfl rfl rfl
    · split at h
      · cases h; exact .of_eq rfl rfl rfl rfl
      · exact nomatch h
  · obtain ⟨⟨q, r⟩, -, h⟩ := bind_ok h
    dsimp only at h
    split at h <;> (cases h; exact .of_eq rfl rfl rfl rfl)
  · obtain ⟨st1, h1, h⟩ := bind_ok h
    cases h
    unfold appendStep at h1
    split at h1
    · split at h1
      · cases h1; exact .of_eq rfl rfl rfl rfl
      · exact nomatch h1
    · cases h1; exact .of_eq rfl rfl rfl rfl
  · exact nomatch h

theorem pushFailed_same {st st' : State} {q : Target} {s : Nat} (h : pushFailed st q s = .ok st') : Same st st' := by
  unfold pushFailed at h
  obtain ⟨j, -, h⟩ := bind_ok h
  cases q with
  | work => replace h : Except.ok _ = Except.ok _ := h; cases h; exact .of_say (.overflowed j) rfl rfl rfl rfl rfl
  | dispatch => cases h; exact .of_say (.undispatched j) rfl rfl rfl rfl rfl

theorem withQueue_blocks (st : State) (q : Target) (x : Queue) : (st.withQueue q x).blocks = st.blocks := by
  cases q <;> rfl

theorem withQueue_slots (st : State) (q : Target) (x : Queue) : (st.withQueue q x).slots = st.slots := by cases q <;> rfl

theorem withQueue_jobs (st : State) (q : Target) (x : Queue) : (st.withQueue q x).jobs = st.jobs := by cases q <;> rfl

theorem withQueue_log (st : State) (q : Target) (x : Queue) : (st.withQueue q x).log = st.log := by cases q <;> rfl

theorem pushStep_same {st st' : State} {q : Target} {s : Nat} {p : PushStage} (h : pushStep st q s p = .ok (some st')) :
    Same st st' := by
  have wq : ∀ (x : Queue) (m : MainPc), Same st { st.withQueue q x with main := m } := fun x m =>
    .of_eq (withQueue_blocks st q x) (withQueue_slots st q x) (withQueue_jobs st q x) (withQueue_log st q x)
  cases p with
  | wait =>
    simp only [pushStep] at h
    split at h
    · cases q with
      | work => dsimp only at h; obtain ⟨st1, h1, h⟩ := bind_ok h; cases h; exact pushFailed_same h1
      | dispatch => exact nomatch h
    · cases h; exact wq _ _
  | load => simp only [pushStep] at h; cases h; exact .of_eq rfl rfl rfl rfl
  | cas pos =>
    simp only [pushStep] at h
    split at h
    · cases h; exact wq _ _
    · cases h; exact .of_eq rfl rfl rfl rfl
  | put pos =>
    simp only [pushStep] at h
    obtain ⟨r, -, h⟩ := bind_ok h
    cases r with
    | none => cases h; exact wq _ _
    | some t => dsimp only at h; obtain ⟨st1, h1, h⟩ := bind_ok h; cases h; exact pushFailed_same h1
  | store pos =>
    simp only [pushStep] at h
    obtain ⟨st1, h1, h⟩ := bind_ok h
    cases h
    exact .of_update h1 (fun _ => rfl) rfl rfl rfl (.inl rfl)
  | release =>
    simp only [pushStep] at h
    obtain ⟨j, -, h⟩ := bind_ok h
    cases h
    refine .of_say (.dispatched j) rfl ?_ ?_ ?_ ?_
    · exact withQueue_blocks _ _ _
    · exact withQueue_slots _ _ _
    · exact withQueue_jobs _ _ _
    · simp only [State.say, withQueue_log]

theorem waitReturn_same {st st' : State} {s : Nat} {ok : Bool} (h : waitReturn st s ok = .ok (some st')) :
    st'.blocks = st.blocks ∧ st'.slots = st.slots ∧ st'.jobs = st.jobs ∧ ∃ e : Event, e.plain = true ∧ st'.log = e :: st.log := by
  unfold waitReturn at h
  obtain ⟨j, -, h⟩ := bind_ok h
  cases h
  exact ⟨rfl, rfl, rfl, _, by cases ok <;> rfl, rfl⟩

theorem popSlot_same {st st' : State} {s : Nat} {b : Bool} (h : popSlot st s = .ok (st', b)) :
    st'.blocks = st.blocks ∧ st'.slots = st.slots ∧ st'.jobs = st.jobs ∧ st'.log = st.log := by
  obtain ⟨-, q, rfl, -⟩ := popSlot_ok h
  exact ⟨rfl, rfl, rfl, rfl⟩

theorem mainStep_same {st st' : State} {timeout : Bool} (h : mainStep st timeout = .ok (some st')) :
    Same st st' ∨ ∃ s taken, st.main = .freeEnd s taken ∧ freeEnd st s = .ok (some st') := by
  unfold mainStep at h
  split at h
  · exact nomatch h
  · exact .inl (pushStep_same h)
  · left
    obtain ⟨x, -, h⟩ := bind_ok h
    split at h
    · obtain ⟨h1, h2, h3, e, h4, h5⟩ := waitReturn_same h
      exact .of_say e h4 h1 h2 h3 h5
    · split at h <;> (cases h; exact .of_eq rfl rfl rfl rfl)
  · left
    obtain ⟨⟨st1, ok⟩, h1, h⟩ := bind_ok h
    obtain ⟨g1, g2, g3, g4⟩ := popSlot_same h1
    dsimp only at h
    split at h <;> (cases h; exact .of_eq g1 g2 g3 g4)
  · left
    obtain ⟨⟨st1, e1⟩, h1, h⟩ := bind_ok h
    have hs := execStep_same h1
    dsimp only at h
    split at h
    · cases h; exact hs.then rfl rfl rfl rfl
    · obtain ⟨h2, h3, h4, e, h5, h6⟩ := waitReturn_same h
      simp only [execStep] at h1
      obtain ⟨st2, g1, h1⟩ := bind_ok h1
      cases h1
      exact .of_update g1 (fun _ => rfl) h2 h3 h4 (.inr ⟨e, h5, h6⟩)
    · exact nomatch h
  · left
    obtain ⟨x, -, h⟩ := bind_ok h
    split at h
    · cases h; exact .of_eq rfl rfl rfl rfl
    · split at h
      · cases h; exact .of_eq rfl rfl rfl rfl
      · exact nomatch h
  · left
    obtain ⟨st1, h1, h⟩ := bind_ok h
    obtain ⟨h2, h3, h4, e, h5, h6⟩ := waitReturn_same h
    exact .of_update h1 (fun _ => rfl) h2 h3 h4 (.inr ⟨e, h5, h6⟩)
  · left
    obtain ⟨x, -, h⟩ := bind_ok h
    split at h <;> (cases h; exact .of_eq rfl rfl rfl rfl)
  · left
    obtain ⟨⟨st1, ok⟩, h1, h⟩ := bind_ok h
    obtain ⟨g1, g2, g3, g4⟩ := popSlot_same h1
    dsimp only at h
    split at h <;> (cases h; exact .of_eq g1 g2 g3 g4)
  · left
    obtain ⟨x, -, h⟩ := bind_ok h
    split at h
    · cases h; exact .of_eq rfl rfl rfl rfl
    · exact nomatch h
  · left
    obtain ⟨st1, h1, h⟩ := bind_ok h
    cases h
    exact .of_update h1 (fun _ => rfl) rfl rfl rfl (.inl rfl)
  · rename_i s taken hm
    exact .inr ⟨s, taken, hm, h⟩

theorem callStep_same {st st' : State} {op : Op} (h : callStep st op = .ok (some st')) :
    Same st st' ∨ ∃ deferred mem, pushCall st deferred mem = .ok st' := by
  cases op with
  | push deferred mem =>
    simp only [callStep] at h
    obtain ⟨st1, h1, h⟩ := bind_ok h
    cases h
    exact .inr ⟨deferred, mem, h1⟩
  | dispatch i =>
    left
    simp only [callStep] at h
    split at h
    · obtain ⟨x, -, h⟩ := bind_ok h
      split at h <;> (cases h; exact .of_eq rfl rfl rfl rfl)
    · exact nomatch h
  | wait i =>
    left
    simp only [callStep] at h
    split at h
    · cases h; exact .of_eq rfl rfl rfl rfl
    · exact nomatch h
  | waitFor i =>
    left
    simp only [callStep] at h
    split at h
    · cases h; exact .of_eq rfl rfl rfl rfl
    · exact nomatch h
  | free i =>
    left
    simp only [callStep] at h
    split at h
    · obtain ⟨x, -, h⟩ := bind_ok h
      cases h
      exact .of_eq rfl rfl rfl rfl
    · exact nomatch h
  | progress i =>
    left
    simp only [callStep] at h
    split at h
    · obtain ⟨x, -, h⟩ := bind_ok h
      obtain ⟨j, -, h⟩ := bind_ok h
      cases h
      exact .of_say (.progress j x.progress) rfl rfl rfl rfl rfl
    · exact nomatch h
  | cancel i =>
    left
    simp only [callStep] at h
    split at h
    · obtain ⟨j, -, h⟩ := bind_ok h
      obtain ⟨st1, h1, h⟩ := bind_ok h
      cases h
      exact .of_update h1 (fun _ => rfl) rfl rfl rfl (.inr ⟨_, rfl, rfl⟩)
    · exact nomatch h

/-- Every step leaves the handles as they are, gives out a handle or frees one. -/
theorem step_same {st st' : State} {a : Act} (h : step st a = .ok (some st')) :
    Same st st' ∨ (∃ deferred mem, st.main = .idle ∧ pushCall st deferred mem = .ok st') ∨
      ∃ s taken, st.main = .freeEnd s taken ∧ freeEnd st s = .ok (some st') := by
  unfold step at h
  split at h
  · exact nomatch h
  · cases a with
    | call op =>
      dsimp only at h
      split at h
      · rename_i hm
        rcases callStep_same h with h | ⟨d, m, h⟩
        · exact .inl h
        · exact .inr (.inl ⟨d, m, hm, h⟩)
      · exact nomatch h
    | main timeout =>
      rcases mainStep_same h with h | h
      · exact .inl h
      · exact .inr (.inr h)
    | worker i =>
      dsimp only at h
      split at h
      · exact nomatch h
      · obtain ⟨r, h1, h⟩ := bind_ok h
        cases r with
        | none => exact nomatch h
        | some r => cases h; exact .inl ((workerStep_same h1).then rfl rfl rfl rfl)
    | dispatcher mem => exact .inl (dispatcherStep_same h)
    | report t v =>
      left
      simp only [reportStep] at h
      split at h
      · obtain ⟨st1, h1, h⟩ := bind_ok h
        cases h
        exact .of_update h1 (fun _ => rfl) rfl rfl rfl (.inr ⟨_, rfl, rfl⟩)
      · exact nomatch h
    | ask t =>
      left
      simp only [askStep] at h
      split at h
      · obtain ⟨x, -, h⟩ := bind_ok h
        cases h
        exact .of_say (.asked _ x.cancelled) rfl rfl rfl rfl rfl
      · exact nomatch h

/-! ## Handles that are in use -/

theorem current_plain {e : Event} {log : List Event} (he : e.plain = true) (i j : Nat) :
    Current (e :: log) i j ↔ Current log i j := by
  constructor
  · rintro ⟨newer, older, hl, hn⟩
    rcases split_cons hl with ⟨-, rfl, -⟩ | ⟨newer', rfl, hk⟩
    · exact nomatch he
    · exact ⟨newer', older, hk, fun k hm => hn k (List.mem_cons_of_mem _ hm)⟩
  · rintro ⟨newer, older, hl, hn⟩
    refine ⟨e :: newer, older, by rw [hl]; rfl, ?_⟩
    intro k hm
    rcases List.mem_cons.mp hm with rfl | hm
    · exact nomatch he
    · exact hn k hm

theorem current_pushed (log : List Event) (i j s k : Nat) :
    Current (.pushed i j :: log) s k ↔ (i = s ∧ j = k) ∨ Current log s k := by
  constructor
  · rintro ⟨newer, older, hl, hn⟩
    rcases split_cons hl with ⟨-, h, -⟩ | ⟨newer', rfl, hk⟩
    · cases h; exact .inl ⟨rfl, rfl⟩
    · exact .inr ⟨newer', older, hk, fun m hm => hn m (List.mem_cons_of_mem _ hm)⟩
  · rintro (⟨rfl, rfl⟩ | ⟨newer, older, hl, hn⟩)
    · exact ⟨[], log, rfl, nofun⟩
    · refine ⟨.pushed i j :: newer, older, by rw [hl]; rfl, ?_⟩
      intro m hm
      rcases List.mem_cons.mp hm with h | hm
      · exact nomatch h
      · exact hn m hm

theorem current_freed (log : List Event) (i j s k : Nat) :
    Current (.freed i j :: log) s k ↔ i ≠ s ∧ Current log s k := by
  constructor
  · rintro ⟨newer, older, hl, hn⟩
    rcases split_cons hl with ⟨-, h, -⟩ | ⟨newer', rfl, hk⟩
    · exact nomatch h
    · refine ⟨?_, newer', older, hk, fun m hm => hn m (List.mem_cons_of_mem _ hm)⟩
      rintro rfl
      exact hn j List.mem_cons_self
  · rintro ⟨hne, newer, older, hl, hn⟩
    refine ⟨.freed i j :: newer, older, by rw [hl]; rfl, ?_⟩
    intro m hm
    rcases List.mem_cons.mp hm with h | hm
    · cases h; exact hne rfl
    · exact hn m hm

/-- What holds of the handles in every run. -/
structure HandleInv (st : State) : Prop where
  block : BlockInv st
  current : ∀ i j, Current st.log i j ↔ (st.slot i).job = some j
  fresh : HandlesFresh st.log
  lt : ∀ i j, .pushed i j ∈ st.log → j < st.jobs

theorem handlesFresh_cons {e : Event} {log : List Event} (h : HandlesFresh log)
    (he : ∀ i j, e = .pushed i j → ¬ Live log i) : HandlesFresh (e :: log) := by
  intro newer i j older hl
  rcases split_cons hl with ⟨-, rfl, rfl⟩ | ⟨newer', -, hl⟩
  · exact he i j rfl
  · exact h _ _ _ _ hl

theorem BlockInv.same {st st' : State} (h : BlockInv st) (hs : Same st st') : BlockInv st' :=
  ⟨by rw [hs.length, hs.blocks]; exact h.length, by rw [hs.blocks]; exact h.avail,
    fun i hi => by rw [hs.job]; rw [hs.blocks] at hi; exact h.free i hi⟩

theorem giveBack_ok {bs bs' : List Block} {i : Nat} (h : giveBack bs i = .ok bs') :
    bs'.length = bs.length ∧ (∀ b ∈ bs', ∃ c ∈ bs, b.avail.length = c.avail.length) ∧ i / blockSize < bs.length ∧
      ∀ m, m ≠ i → bit bs' m = bit bs m := by
  unfold giveBack at h
  cases hb : bs[i / blockSize]? with
  | none => rw [hb] at h; exact nomatch h
  | some b =>
    rw [hb] at h
    cases h
    have hlt := (List.getElem?_eq_some_iff.mp hb).1
    refine ⟨by simp, ?_, hlt, ?_⟩
    · intro c hc
      rcases List.mem_or_eq_of_mem_set hc with hc | rfl
      · exact ⟨c, hc, rfl⟩
      · exact ⟨b, List.mem_of_getElem? hb, by simp⟩
    · intro m hm
      unfold bit
      rw [List.getElem?_set]
      by_cases hd : i / blockSize = m / blockSize
      · rw [if_pos hd, if_pos hlt, ← hd, hb]
        simp only [Option.bind_some]
        rw [List.getElem?_set, if_neg]
        intro h
        apply hm
        rw [← Nat.div_add_mod m blockSize, ← Nat.div_add_mod i blockSize, hd, h]
      · rw [if_neg hd]

theorem freeEnd_ok {st st' : State} {s : Nat} (h : freeEnd st s = .ok (some st')) :
    ∃ x j, st.slots[s]? = some x ∧ x.job = some j ∧ giveBack st.blocks s = .ok st'.blocks ∧
      (x.signaled = true ∨ x.ringPos < 0) ∧
      st' = { st.say (.freed s j) with
        slots := st.slots.set s { x with
          event := false, job := none, signaled := false, ringPos := -1, progress := 0, cancelled := false }
        blocks := st'.blocks, main := .idle } := by
  unfold freeEnd at h
  obtain ⟨x, hx, h⟩ := bind_ok h
  obtain ⟨j, hj, h⟩ := bind_ok h
  obtain ⟨u, hu, h⟩ := bind_ok h
  obtain ⟨bs, hb, h⟩ := bind_ok h
  cases h
  have hx := rd_ok hx
  have hj := jobOf_ok hj
  rw [slot_of_getElem? hx] at hj
  refine ⟨x, j, hx, hj, hb, ?_, rfl⟩
  unfold assert at hu
  split at hu
  · rename_i hc
    simpa using hc
  · exact nomatch hu

theorem handleInv_step {st st' : State} {a : Act} (h : HandleInv st) (hs : step st a = .ok (some st')) :
    HandleInv st' := by
  rcases step_same hs with hs | ⟨d, m, -, hs⟩ | ⟨s, taken, -, hs⟩
  · refine ⟨h.block.same hs, ?_, ?_, ?_⟩
    · intro i j
      rw [hs.job, ← h.current i]
      rcases hs.log with hl | ⟨e, he, hl⟩
      · rw [hl]
      · rw [hl, current_plain he]
    · rcases hs.log with hl | ⟨e, he, hl⟩
      · rw [hl]; exact h.fresh
      · rw [hl]
        refine handlesFresh_cons h.fresh ?_
        rintro i j rfl
        exact nomatch he
    · intro i j hj
      rw [hs.jobs]
      rcases hs.log with hl | ⟨e, he, hl⟩
      · rw [hl] at hj; exact h.lt i j hj
      · rw [hl] at hj
        rcases List.mem_cons.mp hj with rfl | hj
        · exact nomatch he
        · exact h.lt i j hj
  · rcases pushCall_ok h.block hs with ⟨e, rfl⟩ | ⟨i, hi, hsl, hlog, hjobs, -, -, -, -, -, -, -, hb⟩
    · refine ⟨⟨h.block.length, h.block.avail, h.block.free⟩, ?_, ?_, ?_⟩
      · intro i j
        exact (current_plain (by rfl) i j).trans (h.current i j)
      · exact handlesFresh_cons h.fresh nofun
      · intro i j hj
        rcases List.mem_cons.mp hj with h | hj
        · exact nomatch h
        · exact h.lt i j hj
    · have hnl : ¬ Live st.log i := by
        rintro ⟨j, hj⟩
        rw [h.current, hi] at hj
        exact nomatch hj
      refine ⟨hb, ?_, ?_, ?_⟩
      · intro s k
        rw [hlog, current_pushed, hsl, h.current]
        by_cases his : i = s
        · subst his; simp [hi]
        · simp [his]
      · rw [hlog]
        refine handlesFresh_cons h.fresh ?_
        intro k j hk
        cases hk
        exact hnl
      · intro k j hj
        rw [hlog] at hj
        rw [hjobs]
        rcases List.mem_cons.mp hj with hh | hj
        · cases hh; omega
        · have := h.lt k j hj; omega
  · obtain ⟨x, j, hx, hj, hg, -, he⟩ := freeEnd_ok hs
    obtain ⟨g1, g2, g3, g4⟩ := giveBack_ok hg
    have hsl : ∀ t, st'.slot t = if s = t then _ else st.slot t := slot_set hx (by rw [he])
    have hlog : st'.log = .freed s j :: st.log := by rw [he]; rfl
    have hjobs : st'.jobs = st.jobs := by rw [he]; rfl
    have hlen : st'.slots.length = st.slots.length := by rw [he]; simp
    refine ⟨⟨by rw [hlen, g1]; exact h.block.length, ?_, ?_⟩, ?_, ?_, ?_⟩
    · intro b hb
      obtain ⟨c, hc, hbc⟩ := g2 b hb
      rw [hbc]
      exact h.block.avail c hc
    · intro i hi
      rw [hsl]
      by_cases his : s = i
      · rw [if_pos his]
      · rw [if_neg his]
        rw [g4 i (Ne.symm his)] at hi
        exact h.block.free i hi
    · intro i k
      rw [hlog, current_freed, hsl, h.current]
      by_cases his : s = i
      · simp [his]
      · simp [his]
    · rw [hlog]; exact handlesFresh_cons h.fresh nofun
    · intro i k hk
      rw [hlog] at hk
      rw [hjobs]
      rcases List.mem_cons.mp hk with hh | hk
      · exact nomatch hh
      · exact h.lt i k hk

theorem bit_init (i : Nat) (n : Nat) : bit (init n).blocks i = some true ∨ bit (init n).blocks i = none := by
  unfold bit init
  dsimp only
  cases h : i / blockSize with
  | zero =>
    simp only [List.getElem?_cons_zero, Option.bind_some, freshBlock, List.getElem?_replicate]
    split <;> simp
  | succ k => simp

theorem init_slot (n s : Nat) : (init n).slot s = {} := by
  simp only [State.slot, init, List.getD_eq_getElem?_getD, List.getElem?_replicate]
  split <;> rfl

theorem handleInv_init (n : Nat) : HandleInv (init n) := by
  refine ⟨⟨by simp [init], ?_, ?_⟩, ?_, ?_, ?_⟩
  · intro b hb
    simp only [init, List.mem_singleton] at hb
    subst hb
    simp [freshBlock]
  · intro i _; rw [init_slot]
  · intro i j
    rw [init_slot]
    constructor
    · rintro ⟨newer, older, h, -⟩
      simp [init] at h
    · nofun
  · intro newer i j older h
    simp [init] at h
  · intro i j h
    simp [init] at h

theorem handleInv_run {P : State → Act → Prop} {n : Nat} {acts : List Act} {st : State} (h : Run P n acts st) :
    HandleInv st := by
  induction h with
  | start => exact handleInv_init n
  | next _ _ hs ih => exact handleInv_step ih hs

end Tm.Async
