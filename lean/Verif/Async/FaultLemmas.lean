import Verif.Async.CareLemmas

/-!
# The steps of careful runs succeed
-/

namespace Tm.Async

theorem slot_some {st : State} {s j : Nat} (h : (st.slot s).job = some j) : rd st.slots s = .ok (st.slot s) := by
  unfold State.slot at h ⊢
  rw [List.getD_eq_getElem?_getD] at h ⊢
  unfold rd
  cases hx : st.slots[s]? with
  | none => rw [hx] at h; exact nomatch h
  | some x => rfl

theorem slot_rd {st : State} {s : Nat} (h : (st.slot s).job.isSome) : rd st.slots s = .ok (st.slot s) := by
  obtain ⟨j, hj⟩ := Option.isSome_iff_exists.mp h
  exact slot_some hj

theorem jobOf_total {st : State} {s : Nat} (h : (st.slot s).job.isSome) : ∃ j, st.jobOf s = .ok j := by
  obtain ⟨j, hj⟩ := Option.isSome_iff_exists.mp h
  refine ⟨j, ?_⟩
  unfold State.jobOf
  rw [slot_some hj, ok_bind, hj]

theorem update_total {st : State} {s : Nat} (f : Slot → Slot) (h : (st.slot s).job.isSome) :
    ∃ st', st.update s f = .ok st' := by
  unfold State.update
  rw [slot_rd h]
  exact ⟨_, rfl⟩

theorem update_some {st st' : State} {s t : Nat} {f : Slot → Slot} (h : st.update s f = .ok st')
    (hf : ∀ x, (f x).job = x.job) : (st'.slot t).job = (st.slot t).job := by
  obtain ⟨x, hx, rfl⟩ := update_ok h
  rw [slot_set (st' := { st with slots := st.slots.set s (f x) }) hx rfl]
  by_cases hst : s = t
  · subst hst; rw [if_pos rfl, hf, slot_of_getElem? hx]
  · rw [if_neg hst]

theorem waitReturn_total {st : State} {s : Nat} {ok : Bool} (h : (st.slot s).job.isSome) :
    ∃ st', waitReturn st s ok = .ok (some st') := by
  obtain ⟨j, hj⟩ := jobOf_total h
  unfold waitReturn
  rw [hj]
  exact ⟨_, rfl⟩

theorem Inv.some_of {st : State} (hi : Inv st) {s : Nat} (h : 0 < st.waits s + st.runs s + st.sets s) :
    (st.slot s).job.isSome := by
  have := hi.slots s
  unfold SlotOk at this
  cases hj : (st.slot s).job with
  | some j => rfl
  | none =>
    rw [hj] at this
    dsimp only at this
    omega

theorem Exec.place (e : Exec) : ∃ s, 0 < e.waits s + e.runs s + e.sets s ∧ (∀ t j, e = .running t j → t = s) ∧
    (∀ t j, e = .mark t j → t = s) ∧ (∀ t, e = .set t → t = s) ∧ (∀ t, e = .start t → t = s) := by
  cases e with
  | start s => exact ⟨s, by simp [Exec.waits, Exec.runs, Exec.sets], nofun, nofun, nofun, fun t h => by cases h; rfl⟩
  | running s j => exact ⟨s, by simp [Exec.waits, Exec.runs, Exec.sets], fun t j h => by cases h; rfl, nofun, nofun, nofun⟩
  | mark s j => exact ⟨s, by simp [Exec.waits, Exec.runs, Exec.sets], nofun, fun t j h => by cases h; rfl, nofun, nofun⟩
  | set s => exact ⟨s, by simp [Exec.waits, Exec.runs, Exec.sets], nofun, nofun, fun t h => by cases h; rfl, nofun⟩

theorem execStep_total {st : State} (hi : Inv st) {e : Exec} (h : .exec e ∈ st.workers ∨ st.main = .exec e) :
    ∃ r, execStep st e = .ok r ∧ ∀ s, e = .set s → r.2 = none ∧ (r.1.slot s).job.isSome := by
  obtain ⟨s, hpos, hr, hm, hset, hst⟩ := e.place
  have hsome : (st.slot s).job.isSome := by
    apply hi.some_of
    unfold State.waits State.runs State.sets
    rcases h with h | h
    · have h1 := le_sum (WorkerPc.waits s) _ _ h
      have h2 := le_sum (WorkerPc.runs s) _ _ h
      have h3 := le_sum (WorkerPc.sets s) _ _ h
      simp only [WorkerPc.waits, WorkerPc.runs, WorkerPc.sets] at h1 h2 h3
      omega
    · rw [h]
      simp only [MainPc.waits, MainPc.runs, MainPc.sets]
      omega
  cases e with
  | start t =>
    cases hst t rfl
    obtain ⟨j, hj⟩ := Option.isSome_iff_exists.mp hsome
    simp only [execStep]
    rw [slot_some hj, ok_bind, hj]
    exact ⟨_, rfl, nofun⟩
  | running t j => exact ⟨_, rfl, nofun⟩
  | mark t j =>
    cases hm t j rfl
    obtain ⟨st1, h1⟩ := update_total (fun slot => { slot with signaled := true }) hsome
    simp only [execStep]
    rw [h1]
    exact ⟨_, rfl, nofun⟩
  | set t =>
    cases hset t rfl
    obtain ⟨st1, h1⟩ := update_total (fun slot => { slot with event := true }) hsome
    simp only [execStep]
    rw [h1]
    refine ⟨_, rfl, ?_⟩
    rintro u hu
    cases hu
    refine ⟨rfl, ?_⟩
    show (st1.slot s).job.isSome
    rw [update_some h1 fun _ => rfl]
    exact hsome

theorem popStep_total {st : State} (hq : QueueInv st) {p : PopStage} (h : .pop p ∈ st.workers) :
    ∃ r, popStep st.work p = .ok r := by
  cases p with
  | load => exact ⟨_, rfl⟩
  | cas pos => simp only [popStep]; split <;> exact ⟨_, rfl⟩
  | swap pos =>
    obtain ⟨k, -, hk⟩ := hq.work.swap pos h
    have : pos < st.work.ring.length := by
      rw [hq.work.length, ← hk]; exact Nat.mod_lt _ (by decide)
    simp only [popStep]
    unfold rd
    rw [List.getElem?_eq_getElem this]
    exact ⟨_, rfl⟩
  | release r => exact ⟨_, rfl⟩

theorem workerStep_total {st : State} (hi : Inv st) (hq : QueueInv st) {w : WorkerPc} (h : w ∈ st.workers) :
    ∃ r, workerStep st w = .ok r := by
  cases w with
  | wait => simp only [workerStep]; split <;> exact ⟨_, rfl⟩
  | pop p =>
    obtain ⟨⟨q, r⟩, h1⟩ := popStep_total hq h
    simp only [workerStep]
    rw [h1, ok_bind]
    dsimp only
    split <;> exact ⟨_, rfl⟩
  | exec e =>
    obtain ⟨⟨st1, e1⟩, h1, -⟩ := execStep_total hi (.inl h)
    simp only [workerStep]
    rw [h1, ok_bind]
    dsimp only
    split <;> exact ⟨_, rfl⟩

theorem popSlot_total {st : State} (hq : QueueInv st) (hc : CareInv st) {s : Nat} (h : (st.slot s).job.isSome)
    (hp : ¬ (st.slot s).ringPos < 0) : ∃ r : State × Bool, popSlot st s = .ok r := by
  unfold popSlot
  rw [slot_rd h, ok_bind, if_neg hp]
  have hlt : (st.slot s).ringPos.toNat < st.work.ring.length := by
    have := hc.pos s
    rw [hq.work.length]
    unfold ringSize
    omega
  have hrd : rd st.work.ring (st.slot s).ringPos.toNat = .ok st.work.ring[(st.slot s).ringPos.toNat] := by
    unfold rd
    rw [List.getElem?_eq_getElem hlt]
  rw [hrd, ok_bind]
  split <;> exact ⟨_, rfl⟩

theorem pushStep_total {st : State} (hi : Inv st) (hq : QueueInv st) {s : Nat} {p : PushStage}
    (hm : st.main = .push .work s p) : ∃ r, pushStep st .work s p = .ok r := by
  have hok := hi.main
  rw [hm] at hok
  have hsome := hok.1
  obtain ⟨j, hj⟩ := jobOf_total hsome
  have hw := hq.work
  rw [hm] at hw
  have hfail : ∃ st1, pushFailed st .work s = .ok st1 := by
    unfold pushFailed
    rw [hj]
    exact ⟨_, rfl⟩
  obtain ⟨st1, hfail⟩ := hfail
  cases p with
  | wait =>
    simp only [pushStep]
    split
    · rw [hfail]; exact ⟨_, rfl⟩
    · exact ⟨_, rfl⟩
  | load => exact ⟨_, rfl⟩
  | cas pos => simp only [pushStep]; split <;> exact ⟨_, rfl⟩
  | put pos =>
    have hpos := hw.put pos rfl
    have hlt : pos < st.work.ring.length := by
      rw [hw.length, hpos]; exact Nat.mod_lt _ (by decide)
    have hrd : rd (st.queue .work).ring pos = .ok st.work.ring[pos] := by
      unfold rd State.queue
      dsimp only
      rw [List.getElem?_eq_getElem hlt]
    simp only [pushStep]
    rw [hrd, ok_bind]
    cases hcell : st.work.ring[pos] with
    | none => exact ⟨_, rfl⟩
    | some t => dsimp only; rw [hfail]; exact ⟨_, rfl⟩
  | store pos =>
    obtain ⟨st2, h2⟩ := update_total (fun slot => { slot with ringPos := (pos : Int) }) hsome
    simp only [pushStep]
    rw [h2]
    exact ⟨_, rfl⟩
  | release => simp only [pushStep]; rw [hj]; exact ⟨_, rfl⟩

theorem block_some {st : State} (hb : BlockInv st) {s : Nat} (h : (st.slot s).job.isSome) :
    ∃ b, st.blocks[s / blockSize]? = some b ∧ b.avail.length = blockSize := by
  have hlt : s < st.slots.length := by
    by_cases hlt : s < st.slots.length
    · exact hlt
    · unfold State.slot at h
      rw [List.getD_eq_getElem?_getD, List.getElem?_eq_none (by omega)] at h
      exact nomatch h
  rw [hb.length] at hlt
  have : s / blockSize < st.blocks.length := Nat.div_lt_of_lt_mul (by rw [Nat.mul_comm]; exact hlt)
  refine ⟨st.blocks[s / blockSize], List.getElem?_eq_getElem this, hb.avail _ (List.getElem_mem this)⟩

theorem mainStep_total {st : State} (hi : Inv st) (hb : BlockInv st) (hq : QueueInv st) (hc : CareInv st)
    (timeout : Bool) : ∃ r, mainStep st timeout = .ok r := by
  have hok := hi.main
  unfold mainStep
  cases hm : st.main with
  | idle => exact ⟨_, rfl⟩
  | push q s p =>
    cases q with
    | work => exact pushStep_total hi hq hm
    | dispatch => exact absurd hm (hq.main s p)
  | waiting s timed =>
    rw [hm] at hok
    obtain ⟨st1, h1⟩ := waitReturn_total (ok := true) hok
    dsimp only
    rw [slot_rd hok, ok_bind, h1]
    split
    · exact ⟨_, rfl⟩
    · split <;> exact ⟨_, rfl⟩
  | steal s =>
    rw [hm] at hok
    obtain ⟨⟨st1, ok⟩, h1⟩ := popSlot_total hq hc hok (hc.wait s (.inr hm))
    dsimp only
    rw [h1, ok_bind]
    dsimp only
    split <;> exact ⟨_, rfl⟩
  | exec e =>
    obtain ⟨⟨st1, e1⟩, h1, h2⟩ := execStep_total hi (.inr hm)
    dsimp only
    rw [h1, ok_bind]
    dsimp only
    split
    · exact ⟨_, rfl⟩
    · rename_i s
      obtain ⟨st2, h3⟩ := waitReturn_total (ok := true) (h2 s rfl).2
      exact ⟨_, h3⟩
    · rename_i hne
      exfalso
      cases e with
      | start t =>
        simp only [execStep] at h1
        obtain ⟨x, -, h1⟩ := bind_ok h1
        cases hj : x.job with
        | none => rw [hj] at h1; exact nomatch h1
        | some j => rw [hj] at h1; exact nomatch h1
      | running t j => exact nomatch h1
      | mark t j => simp only [execStep] at h1; obtain ⟨x, -, h1⟩ := bind_ok h1; exact nomatch h1
      | set t => exact hne t rfl
  | block s timed =>
    rw [hm] at hok
    dsimp only
    rw [slot_rd hok.1, ok_bind]
    split
    · exact ⟨_, rfl⟩
    · split <;> exact ⟨_, rfl⟩
  | mark s ok =>
    rw [hm] at hok
    obtain ⟨st1, h1⟩ := update_total (fun slot => { slot with signaled := true }) hok.1
    dsimp only
    rw [h1, ok_bind]
    obtain ⟨st2, h2⟩ := waitReturn_total (st := st1) (s := s) (ok := ok) (by rw [update_some h1 fun _ => rfl]; exact hok.1)
    exact ⟨_, h2⟩
  | free s =>
    rw [hm] at hok
    dsimp only
    rw [slot_rd hok, ok_bind]
    split <;> exact ⟨_, rfl⟩
  | freeSteal s =>
    rw [hm] at hok
    obtain ⟨⟨st1, ok⟩, h1⟩ := popSlot_total hq hc hok.1 hok.2
    dsimp only
    rw [h1, ok_bind]
    dsimp only
    split <;> exact ⟨_, rfl⟩
  | freeBlock s =>
    rw [hm] at hok
    dsimp only
    rw [slot_rd hok.1, ok_bind]
    split <;> exact ⟨_, rfl⟩
  | freeMark s =>
    rw [hm] at hok
    obtain ⟨st1, h1⟩ := update_total (fun slot => { slot with signaled := true }) hok.1
    dsimp only
    rw [h1]
    exact ⟨_, rfl⟩
  | freeEnd s taken =>
    rw [hm] at hok
    obtain ⟨j, hj⟩ := jobOf_total hok.1
    obtain ⟨b, hbs, -⟩ := block_some hb hok.1
    dsimp only
    unfold freeEnd
    rw [slot_rd hok.1, ok_bind, hj, ok_bind]
    have : (((st.slot s).signaled || decide ((st.slot s).ringPos < 0)) : Bool) = true := by
      rcases hc.freeEnd s taken hm with h | h
      · rw [h]; rfl
      · rw [decide_eq_true h, Bool.or_true]
    rw [this]
    unfold giveBack
    rw [hbs]
    exact ⟨_, rfl⟩

theorem callStep_total {st : State} (hb : BlockInv st) (hc : CareInv st) (op : Op) : ∃ r, callStep st op = .ok r := by
  cases op with
  | push deferred mem =>
    simp only [callStep]
    have : ∃ st', pushCall st deferred mem = .ok st' := by
      unfold pushCall
      obtain ⟨r, hr⟩ := takeSlot_total (mem := mem) 0 hc.count
      rw [hr, ok_bind]
      cases r with
      | error e => exact ⟨_, rfl⟩
      | ok r =>
        obtain ⟨i, blocks⟩ := r
        obtain ⟨k, rfl, -, -, -, g3, -⟩ := takeSlot_ok hb.avail hr
        have hlen : 0 + k < (st.slots ++ List.replicate (blocks.length * blockSize - st.slots.length) ({} : Slot)).length := by
          rw [List.length_append, List.length_replicate]
          omega
        have : ∃ l, placeJob st.slots blocks (0 + k) st.jobs = .ok l := by
          unfold placeJob rd
          dsimp only
          rw [List.getElem?_eq_getElem hlen]
          exact ⟨_, rfl⟩
        obtain ⟨l, hl⟩ := this
        dsimp only
        rw [hl]
        cases deferred <;> exact ⟨_, rfl⟩
    obtain ⟨st', h⟩ := this
    rw [h]
    exact ⟨_, rfl⟩
  | dispatch i =>
    simp only [callStep]
    split
    · rename_i hl
      rw [slot_rd (live_ok hl), ok_bind]
      split <;> exact ⟨_, rfl⟩
    · exact ⟨_, rfl⟩
  | wait i => simp only [callStep]; split <;> exact ⟨_, rfl⟩
  | waitFor i => simp only [callStep]; split <;> exact ⟨_, rfl⟩
  | free i =>
    simp only [callStep]
    split
    · rename_i hl
      have hsome := live_ok hl
      obtain ⟨b, hbs, hlen⟩ := block_some hb hsome
      have : i % blockSize < b.avail.length := by rw [hlen]; exact Nat.mod_lt _ (by decide)
      have hav := List.getElem?_eq_getElem this
      cases hbit : b.avail[i % blockSize] with
      | true =>
        exfalso
        have := hb.free i (by unfold bit; rw [hbs]; simp only [Option.bind_some]; rw [hav, hbit])
        rw [this] at hsome
        exact nomatch hsome
      | false =>
        unfold checkTaken
        rw [hbs]
        dsimp only
        rw [hav, hbit]
        exact ⟨_, rfl⟩
    · exact ⟨_, rfl⟩
  | progress i =>
    simp only [callStep]
    split
    · rename_i hl
      obtain ⟨j, hj⟩ := jobOf_total (live_ok hl)
      rw [slot_rd (live_ok hl), ok_bind, hj]
      exact ⟨_, rfl⟩
    · exact ⟨_, rfl⟩
  | cancel i =>
    simp only [callStep]
    split
    · rename_i hl
      obtain ⟨j, hj⟩ := jobOf_total (live_ok hl)
      obtain ⟨st1, h1⟩ := update_total (fun slot => { slot with cancelled := true }) (live_ok hl)
      rw [hj, ok_bind, h1]
      exact ⟨_, rfl⟩
    · exact ⟨_, rfl⟩

theorem executes_some {st : State} (hi : Inv st) {t : Option Nat} {s j : Nat} (h : st.executes t = some (.running s j)) :
    (st.slot s).job = some j := by
  cases t with
  | none =>
    simp only [State.executes] at h
    split at h
    · rename_i e hm
      cases h
      have := hi.main
      rw [hm] at this
      exact this
    · exact nomatch h
  | some i =>
    simp only [State.executes] at h
    split at h
    · rename_i e hm
      cases h
      exact hi.workers _ (List.mem_of_getElem? hm)
    · exact nomatch h

theorem step_total {st : State} (hi : Inv st) (hb : BlockInv st) (hq : QueueInv st) (hc : CareInv st) (a : Act) :
    ∃ r, step st a = .ok r := by
  unfold step
  rw [hq.running, if_neg (by simp)]
  cases a with
  | call op =>
    dsimp only
    split
    · exact callStep_total hb hc op
    · exact ⟨_, rfl⟩
  | main timeout => exact mainStep_total hi hb hq hc timeout
  | worker i =>
    dsimp only
    cases hw : st.workers[i]? with
    | none => exact ⟨_, rfl⟩
    | some w =>
      obtain ⟨r, hr⟩ := workerStep_total hi hq (List.mem_of_getElem? hw)
      dsimp only
      rw [hr, ok_bind]
      cases r with
      | none => exact ⟨_, rfl⟩
      | some r => exact ⟨_, rfl⟩
  | dispatcher mem =>
    dsimp only
    unfold dispatcherStep
    rw [hq.dispatcher]
    dsimp only
    rw [hq.dispatch, hq.array]
    exact ⟨none, by simp [emptyQueue]⟩
  | report t v =>
    simp only [reportStep]
    split
    · rename_i s j h
      have := executes_some hi h
      obtain ⟨st1, h1⟩ := update_total (fun slot => { slot with progress := v }) (by rw [this]; rfl)
      rw [h1]
      exact ⟨_, rfl⟩
    · exact ⟨_, rfl⟩
  | ask t =>
    simp only [askStep]
    split
    · rename_i s j h
      have := executes_some hi h
      rw [slot_some this]
      exact ⟨_, rfl⟩
    · exact ⟨_, rfl⟩

/-! ## The number of threads -/

theorem execStep_workers {st st' : State} {e : Exec} {e' : Option Exec} (h : execStep st e = .ok (st', e')) :
    st'.workers = st.workers := by
  cases e with
  | start s =>
    simp only [execStep] at h
    obtain ⟨x, -, h⟩ := bind_ok h
    split at h
    · exact nomatch h
    · cases h; rfl
  | running s j => cases h; rfl
  | mark s j =>
    simp only [execStep] at h
    obtain ⟨st1, h1, h⟩ := bind_ok h
    obtain ⟨x, -, rfl⟩ := update_ok h1
    cases h; rfl
  | set s =>
    simp only [execStep] at h
    obtain ⟨st1, h1, h⟩ := bind_ok h
    obtain ⟨x, -, rfl⟩ := update_ok h1
    cases h; rfl

theorem pushStep_workers {st st' : State} {q : Target} {s : Nat} {p : PushStage}
    (h : pushStep st q s p = .ok (some st')) : st'.workers = st.workers := by
  have fail : ∀ st1, pushFailed st q s = .ok st1 → st1.workers = st.workers := by
    intro st1 h
    unfold pushFailed at h
    obtain ⟨j, -, h⟩ := bind_ok h
    cases q <;> (cases h; rfl)
  cases p with
  | wait =>
    simp only [pushStep] at h
    split at h
    · cases q with
      | work =>
        obtain ⟨st1, h1, h⟩ := bind_ok h
        cases h
        exact fail _ h1
      | dispatch => exact nomatch h
    · cases q <;> (cases h; rfl)
  | load => cases h; rfl
  | cas pos => simp only [pushStep] at h; split at h <;> (cases q <;> (cases h; rfl))
  | put pos =>
    simp only [pushStep] at h
    obtain ⟨r, -, h⟩ := bind_ok h
    cases r with
    | none => cases q <;> (cases h; rfl)
    | some t =>
      obtain ⟨st1, h1, h⟩ := bind_ok h
      cases h
      exact fail _ h1
  | store pos =>
    simp only [pushStep] at h
    obtain ⟨st1, h1, h⟩ := bind_ok h
    obtain ⟨x, -, rfl⟩ := update_ok h1
    cases h; rfl
  | release =>
    simp only [pushStep] at h
    obtain ⟨st1, h1, h⟩ := bind_ok h
    cases q <;> (cases h; rfl)

theorem mainStep_workers {st st' : State} {timeout : Bool} (h : mainStep st timeout = .ok (some st')) :
    st'.workers = st.workers := by
  have ret : ∀ {st1 : State} {s : Nat} {ok : Bool}, st1.workers = st.workers →
      waitReturn st1 s ok = .ok (some st') → st'.workers = st.workers := by
    intro st1 s ok h1 hr
    obtain ⟨-, -, -, -, -, g, -⟩ := waitReturn_queue hr
    rw [g, h1]
  unfold mainStep at h
  split at h
  · exact nomatch h
  · exact pushStep_workers h
  · obtain ⟨x, -, h⟩ := bind_ok h
    split at h
    · exact ret rfl h
    · split at h <;> (cases h; rfl)
  · obtain ⟨⟨st1, ok⟩, h1, h⟩ := bind_ok h
    obtain ⟨-, q, rfl, -⟩ := popSlot_ok h1
    dsimp only at h
    split at h <;> (cases h; rfl)
  · obtain ⟨⟨st1, e1⟩, h1, h⟩ := bind_ok h
    have hw := execStep_workers h1
    dsimp only at h
    split at h
    · cases h; exact hw
    · exact ret hw h
    · exact nomatch h
  · obtain ⟨x, -, h⟩ := bind_ok h
    split at h
    · cases h; rfl
    · split at h
      · cases h; rfl
      · exact nomatch h
  · obtain ⟨st1, h1, h⟩ := bind_ok h
    obtain ⟨x, -, rfl⟩ := update_ok h1
    refine ret ?_ h
    rfl
  · obtain ⟨x, -, h⟩ := bind_ok h
    split at h <;> (cases h; rfl)
  · obtain ⟨⟨st1, ok⟩, h1, h⟩ := bind_ok h
    obtain ⟨-, q, rfl, -⟩ := popSlot_ok h1
    dsimp only at h
    split at h <;> (cases h; rfl)
  · obtain ⟨x, -, h⟩ := bind_ok h
    split at h
    · cases h; rfl
    · exact nomatch h
  · obtain ⟨st1, h1, h⟩ := bind_ok h
    obtain ⟨x, -, rfl⟩ := update_ok h1
    cases h; rfl
  · obtain ⟨x, j, -, -, -, -, he⟩ := freeEnd_ok h
    rw [he]; rfl

theorem callStep_workers {st st' : State} {op : Op} (hb : BlockInv st) (h : callStep st op = .ok (some st')) :
    st'.workers = st.workers := by
  cases op with
  | push deferred mem =>
    simp only [callStep] at h
    obtain ⟨st1, h1, h⟩ := bind_ok h
    cases h
    rcases pushCall_ok hb h1 with ⟨e, rfl⟩ | ⟨i, -, -, -, -, -, -, -, g, -⟩
    · rfl
    · exact g
  | dispatch i =>
    simp only [callStep] at h
    split at h
    · obtain ⟨x, -, h⟩ := bind_ok h
      split at h <;> (cases h; rfl)
    · exact nomatch h
  | wait i => simp only [callStep] at h; split at h <;> cases h; rfl
  | waitFor i => simp only [callStep] at h; split at h <;> cases h; rfl
  | free i =>
    simp only [callStep] at h
    split at h
    · obtain ⟨x, -, h⟩ := bind_ok h
      cases h; rfl
    · exact nomatch h
  | progress i =>
    simp only [callStep] at h
    split at h
    · obtain ⟨x, -, h⟩ := bind_ok h
      obtain ⟨j, -, h⟩ := bind_ok h
      cases h; rfl
    · exact nomatch h
  | cancel i =>
    simp only [callStep] at h
    split at h
    · obtain ⟨x, -, h⟩ := bind_ok h
      obtain ⟨st1, h1, h⟩ := bind_ok h
      obtain ⟨x, -, rfl⟩ := update_ok h1
      cases h; rfl
    · exact nomatch h

theorem step_workers {st st' : State} {a : Act} (hb : BlockInv st) (h : step st a = .ok (some st')) :
    st'.workers.length = st.workers.length := by
  unfold step at h
  split at h
  · exact nomatch h
  cases a with
  | call op =>
    dsimp only at h
    split at h
    · rw [callStep_workers hb h]
    · exact nomatch h
  | main timeout => rw [mainStep_workers h]
  | worker i =>
    dsimp only at h
    split at h
    · exact nomatch h
    · obtain ⟨r, -, h⟩ := bind_ok h
      cases r with
      | none => exact nomatch h
      | some r => cases h; simp
  | dispatcher mem =>
    replace h : dispatcherStep st mem = .ok (some st') := h
    unfold dispatcherStep at h
    split at h
    · split at h
      · cases h; rfl
      · split at h
        · cases h; rfl
        · exact nomatch h
    · obtain ⟨⟨q, r⟩, -, h⟩ := bind_ok h
      dsimp only at h
      split at h <;> (cases h; rfl)
    · obtain ⟨st1, h1, h⟩ := bind_ok h
      cases h
      unfold appendStep at h1
      split at h1
      · split at h1
        · cases h1; rfl
        · exact nomatch h1
      · cases h1; rfl
    · exact nomatch h
  | report t v =>
    simp only [reportStep] at h
    split at h
    · obtain ⟨st1, h1, h⟩ := bind_ok h
      obtain ⟨x, -, rfl⟩ := update_ok h1
      cases h; rfl
    · exact nomatch h
  | ask t =>
    simp only [askStep] at h
    split at h
    · obtain ⟨x, -, h⟩ := bind_ok h
      cases h; rfl
    · exact nomatch h

theorem run_workers {P : State → Act → Prop} {n : Nat} {acts : List Act} {st : State} (h : Run P n acts st) :
    st.workers.length = n := by
  induction h with
  | start => simp [init]
  | next hr _ hs ih => rw [step_workers (handleInv_run hr).block hs, ih]

/-! ## Schedules -/

theorem Steps.cons {P : State → Act → Prop} {st0 st1 st : State} {a : Act} {acts : List Act} (hp : P st0 a)
    (hs : step st0 a = .ok (some st1)) (h : Steps P st1 acts st) : Steps P st0 (a :: acts) st := by
  have := steps_trans (.next .start hp hs) h
  exact this

/-- A schedule, each step of which is checked. -/
def runs (P : State → Act → Bool) (st : State) : List Act → Option State
  | [] => some st
  | a :: as =>
    if P st a then
      match step st a with
      | .ok (some st') => runs P st' as
      | _ => none
    else none

theorem steps_of_runs {P : State → Act → Prop} {Q : State → Act → Bool} (hQ : ∀ st a, Q st a = true → P st a)
    {st st' : State} {acts : List Act} (h : runs Q st acts = some st') : Steps P st acts st' := by
  induction acts generalizing st with
  | nil => cases h; exact .start
  | cons a as ih =>
    unfold runs at h
    split at h
    · rename_i hq
      split at h
      · rename_i hs
        exact .cons (hQ _ _ hq) hs (ih h)
      · exact nomatch h
    · exact nomatch h

theorem run_steps {st st' : State} {acts : List Act} (h : run st acts = .ok (some st')) : Steps Any st acts st' := by
  induction acts generalizing st with
  | nil => cases h; exact .start
  | cons a as ih =>
    unfold run at h
    obtain ⟨r, hr, h⟩ := bind_ok h
    cases r with
    | none => exact nomatch h
    | some st1 => exact .cons trivial hr (ih h)

def calm (st : State) (a : Act) : Bool :=
  decide (a ≠ .main true) && (match st.main with
    | .freeEnd s _ => decide (.exec (.set s) ∉ st.workers)
    | _ => true)

theorem calm_of {st : State} {a : Act} (h : calm st a = true) : Calm st a := by
  unfold calm at h
  rw [Bool.and_eq_true] at h
  refine ⟨of_decide_eq_true h.1, ?_⟩
  intro s taken hm _
  have h2 := h.2
  rw [hm] at h2
  exact of_decide_eq_true h2

def careful (st : State) (a : Act) : Bool :=
  calm st a && (match a with
    | .call (.wait i) =>
      (match (st.slot i).job with
        | some j => decide (.dispatched j ∈ st.log)
        | none => true)
    | .call (.free i) =>
      (match (st.slot i).job with
        | some j => decide (.dispatched j ∈ st.log → .started j ∈ st.log)
        | none => true)
    | _ => true)

theorem careful_of {st : State} {a : Act} (hh : HandleInv st) (h : careful st a = true) : Careful st a := by
  unfold careful at h
  rw [Bool.and_eq_true] at h
  refine ⟨calm_of h.1, ?_, ?_⟩
  · rintro i rfl j hj
    have h2 := h.2
    dsimp only at h2
    rw [(hh.current i j).mp hj] at h2
    exact of_decide_eq_true h2
  · rintro i rfl j hj
    have h2 := h.2
    dsimp only at h2
    rw [(hh.current i j).mp hj] at h2
    exact of_decide_eq_true h2

theorem run_careful {n : Nat} {acts more : List Act} {st st' : State} (hr : Run Careful n acts st)
    (h : runs careful st more = some st') : Run Careful n (acts ++ more) st' := by
  induction more generalizing st acts with
  | nil => cases h; rw [List.append_nil]; exact hr
  | cons a as ih =>
    unfold runs at h
    split at h
    · rename_i hq
      split at h
      · rename_i hs
        have := ih (.next hr (careful_of (handleInv_run hr) hq) hs) h
        rwa [List.append_assoc] at this
      · exact nomatch h
    · exact nomatch h

end Tm.Async
