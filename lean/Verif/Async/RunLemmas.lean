import Verif.Async.StepLemmas

/-!
# The invariant of calm runs
-/

namespace Tm.Async

theorem live_ok {st : State} {i : Nat} (h : st.live i = true) : (st.slot i).job.isSome := by
  unfold State.live at h
  cases hs : st.slots[i]? with
  | none => rw [hs] at h; exact nomatch h
  | some x => rw [hs] at h; rw [slot_of_getElem? hs]; exact h

/-- Storing the progress of a work, and the event that goes with it. -/
theorem inv_report {st st1 : State} {s j : Nat} {v : Int} (h : Inv st) (hj : (st.slot s).job = some j)
    (hu : st.update s (fun slot => { slot with progress := v }) = .ok st1) : Inv (st1.say (.reported j v)) := by
  obtain ⟨x, hx, rfl⟩ := update_ok hu
  have hxs := slot_of_getElem? hx
  have hsl : ∀ t, (State.say { st with slots := st.slots.set s { x with progress := v } } (.reported j v)).slot t =
      if s = t then { x with progress := v } else st.slot t := slot_set hx rfl
  have k : Keeps st (State.say { st with slots := st.slots.set s { x with progress := v } } (.reported j v)) := by
    refine ⟨?_, ?_, ?_, fun e he => List.mem_cons_of_mem _ he⟩ <;>
    · intro t
      rw [hsl]
      by_cases hst : s = t
      · subst hst; rw [if_pos rfl, hxs]; try exact id
      · rw [if_neg hst]; try exact id
  refine h.happen (.reported j v) rfl rfl k.job (fun t => by rw [k.pos]; exact id) ?_
    (fun w hw => k.worker (h.workers w hw)) (k.main h.main) ⟨nofun, ?_, nofun, nofun, nofun, nofun, nofun, nofun⟩
  · intro t
    rw [hsl]
    by_cases hst : s = t
    · subst hst
      rw [if_pos rfl]
      have := h.slots s
      rw [hxs] at this hj
      unfold SlotOk at this ⊢
      dsimp only
      rw [hj] at this ⊢
      dsimp only at this ⊢
      obtain ⟨h1, h2, h3, h4, h5, h6, h7, h8, h9⟩ := this
      refine ⟨h1, h2, ?_, fun hh => List.mem_cons_of_mem _ (h4 hh), h5, h6, h7, ?_, ?_⟩
      · show List.count _ (.reported j v :: st.log) = _
        rw [List.count_cons_of_ne (a := Event.started j) (b := Event.reported j v) nofun]
        exact h3
      · show v = lastReport j (.reported j v :: st.log)
        simp [lastReport]
      · rw [h9]
        show _ ↔ _ ∈ Event.reported j v :: st.log
        simp
    · rw [if_neg hst]
      refine (h.slots t).say ?_
      intro k hk
      refine ⟨nofun, ?_, nofun⟩
      intro v' he
      cases he
      exact hst (h.distinct s t j hj hk)
  · intro k v' he
    cases he
    exact h.job_lt hj

/-- Cancelling a work. -/
theorem inv_cancel {st st1 : State} {s j : Nat} (h : Inv st) (hj : (st.slot s).job = some j)
    (hu : st.update s (fun slot => { slot with cancelled := true }) = .ok st1) : Inv (st1.say (.cancelled j)) := by
  obtain ⟨x, hx, rfl⟩ := update_ok hu
  have hxs := slot_of_getElem? hx
  have hsl : ∀ t, (State.say { st with slots := st.slots.set s { x with cancelled := true } } (.cancelled j)).slot t =
      if s = t then { x with cancelled := true } else st.slot t := slot_set hx rfl
  have k : Keeps st (State.say { st with slots := st.slots.set s { x with cancelled := true } } (.cancelled j)) := by
    refine ⟨?_, ?_, ?_, fun e he => List.mem_cons_of_mem _ he⟩ <;>
    · intro t
      rw [hsl]
      by_cases hst : s = t
      · subst hst; rw [if_pos rfl, hxs]; try exact id
      · rw [if_neg hst]; try exact id
  refine h.happen (.cancelled j) rfl rfl k.job (fun t => by rw [k.pos]; exact id) ?_
    (fun w hw => k.worker (h.workers w hw)) (k.main h.main) ⟨nofun, nofun, ?_, nofun, nofun, nofun, nofun, nofun⟩
  · intro t
    rw [hsl]
    by_cases hst : s = t
    · subst hst
      rw [if_pos rfl]
      have := h.slots s
      rw [hxs] at this hj
      unfold SlotOk at this ⊢
      dsimp only
      rw [hj] at this ⊢
      dsimp only at this ⊢
      obtain ⟨h1, h2, h3, h4, h5, h6, h7, h8, h9⟩ := this
      refine ⟨h1, h2, ?_, fun hh => List.mem_cons_of_mem _ (h4 hh), h5, h6, h7, ?_, ?_⟩
      · show List.count _ (.cancelled j :: st.log) = _
        rw [List.count_cons_of_ne (a := Event.started j) (b := Event.cancelled j) nofun]
        exact h3
      · exact h8
      · exact ⟨fun _ => List.mem_cons_self, fun _ => rfl⟩
    · rw [if_neg hst]
      refine (h.slots t).say ?_
      intro k hk
      refine ⟨nofun, nofun, ?_⟩
      intro he
      cases he
      exact hst (h.distinct s t j hj hk)
  · intro k he
    cases he
    exact h.job_lt hj

theorem Inv.executes {st : State} (h : Inv st) {t : Option Nat} {s j : Nat} (he : st.executes t = some (.running s j)) :
    (st.slot s).job = some j := by
  cases t with
  | none =>
    unfold State.executes at he
    have := h.main
    cases hm : st.main with
    | exec e => rw [hm] at he this; cases he; exact this
    | _ => rw [hm] at he; exact nomatch he
  | some i =>
    unfold State.executes at he
    cases hw : st.workers[i]? with
    | none => simp [hw] at he
    | some w =>
      have := h.workers w (List.mem_of_getElem? hw)
      cases w with
      | exec e => simp [hw] at he; subst he; exact this
      | _ => simp [hw] at he

theorem inv_call {st st' : State} {op : Op} (h : Inv st) (hb : BlockInv st) (hm : st.main = .idle)
    (hs : callStep st op = .ok (some st')) : Inv st' := by
  have skip : ∀ m' : MainPc, (∀ s, m'.waits s = 0) → (∀ s, m'.pushing s = false) →
      (∀ s, m'.runs s = 0) → (∀ s, m'.sets s = 0) → MainOk st m' → Inv { st with main := m' } := by
    intro m' h1 h2 h3 h4 h5
    refine h.mainSkip st.work st.dispatch m' rfl rfl ?_ ?_ ?_ ?_ h5
    · intro s; rw [h1, hm]; rfl
    · intro s; rw [h2, hm]; rfl
    · intro s; rw [h3, hm]; rfl
    · intro s; rw [h4, hm]; rfl
  cases op with
  | push deferred mem =>
    simp only [callStep] at hs
    obtain ⟨st1, h1, hs⟩ := bind_ok hs
    cases hs
    exact inv_pushCall h hb hm h1
  | dispatch i =>
    simp only [callStep] at hs
    split at hs
    · rename_i hl
      obtain ⟨x, hx, hs⟩ := bind_ok hs
      have hxs := slot_of_getElem? (rd_ok hx)
      have hjob := live_ok hl
      split at hs
      · cases hs; exact h
      · rename_i hp
        cases hs
        have hpos : (st.slot i).ringPos < 0 := by rw [hxs]; omega
        have hone : ∀ t, (if i = t ∧ PushStage.wait.holds = true then 1 else 0) + home (st.slot t) (decide (i = t)) =
            home (st.slot t) false := by
          intro t
          by_cases hit : i = t
          · subst hit; simp [home, hpos, PushStage.holds]
          · simp [home, hit]
        refine h.mainMove st.work st.dispatch (.push .work i .wait) ?_ ?_ ?_ ?_ ⟨hjob, by simpa using hpos⟩
        · intro t
          have := hone t
          rw [hm]
          simp only [MainPc.waits, MainPc.pushing]
          omega
        · intro t ht
          rw [hm]
          have : i ≠ t := by rintro rfl; rw [ht] at hjob; exact nomatch hjob
          simp [MainPc.waits, this]
        · intro t; rw [hm]; rfl
        · intro t; rw [hm]; rfl
    · exact nomatch hs
  | wait i =>
    simp only [callStep] at hs
    split at hs
    · rename_i hl
      cases hs
      exact skip _ (fun _ => rfl) (fun _ => rfl) (fun _ => rfl) (fun _ => rfl) (live_ok hl)
    · exact nomatch hs
  | waitFor i =>
    simp only [callStep] at hs
    split at hs
    · rename_i hl
      cases hs
      exact skip _ (fun _ => rfl) (fun _ => rfl) (fun _ => rfl) (fun _ => rfl) (live_ok hl)
    · exact nomatch hs
  | free i =>
    simp only [callStep] at hs
    split at hs
    · rename_i hl
      obtain ⟨u, -, hs⟩ := bind_ok hs
      cases hs
      exact skip _ (fun _ => rfl) (fun _ => rfl) (fun _ => rfl) (fun _ => rfl) (live_ok hl)
    · exact nomatch hs
  | progress i =>
    simp only [callStep] at hs
    split at hs
    · obtain ⟨x, hx, hs⟩ := bind_ok hs
      obtain ⟨j, hj, hs⟩ := bind_ok hs
      cases hs
      have hj := jobOf_ok hj
      have hxs := slot_of_getElem? (rd_ok hx)
      refine h.say _ ⟨nofun, nofun, nofun, nofun, nofun, ?_, nofun, nofun⟩ ⟨nofun, nofun, nofun⟩
      intro k v he
      cases he
      have := h.slots i
      unfold SlotOk at this
      rw [hj] at this
      rw [← hxs]
      exact this.2.2.2.2.2.2.2.1
    · exact nomatch hs
  | cancel i =>
    simp only [callStep] at hs
    split at hs
    · obtain ⟨j, hj, hs⟩ := bind_ok hs
      obtain ⟨st1, h1, hs⟩ := bind_ok hs
      cases hs
      exact inv_cancel h (jobOf_ok hj) h1
    · exact nomatch hs

theorem inv_step {st st' : State} {a : Act} (h : Inv st) (hb : BlockInv st) (hc : Calm st a)
    (hs : step st a = .ok (some st')) : Inv st' := by
  unfold step at hs
  split at hs
  · exact nomatch hs
  · cases a with
    | call op =>
      dsimp only at hs
      split at hs
      · rename_i hm; exact inv_call h hb hm hs
      · exact nomatch hs
    | main timeout =>
      cases timeout with
      | true => exact absurd rfl hc.1
      | false => exact inv_main h (fun s taken hm => hc.2 s taken hm rfl) hs
    | worker i =>
      dsimp only at hs
      split at hs
      · exact nomatch hs
      · rename_i w hw
        obtain ⟨r, h1, hs⟩ := bind_ok hs
        cases r with
        | none => exact nomatch hs
        | some r => cases hs; exact inv_worker h hw h1
    | dispatcher mem => exact inv_dispatcher h hs
    | report t v =>
      simp only [reportStep] at hs
      split at hs
      · rename_i he
        obtain ⟨st1, h1, hs⟩ := bind_ok hs
        cases hs
        exact inv_report h (h.executes he) h1
      · exact nomatch hs
    | ask t =>
      simp only [askStep] at hs
      split at hs
      · rename_i s j he
        obtain ⟨x, hx, hs⟩ := bind_ok hs
        cases hs
        have hj := h.executes he
        have hxs := slot_of_getElem? (rd_ok hx)
        refine h.say _ ⟨nofun, nofun, nofun, nofun, nofun, nofun, ?_, nofun⟩ ⟨nofun, nofun, nofun⟩
        intro k b hk
        cases hk
        have := h.slots s
        unfold SlotOk at this
        rw [hj] at this
        rw [← hxs]
        exact this.2.2.2.2.2.2.2.2
      · exact nomatch hs

theorem inv_init (n : Nat) : Inv (init n) := by
  refine ⟨?_, ?_, trivial, ?_, nofun, fun _ _ => rfl, nofun, nofun, nofun, fun _ => by simp [init], ?_, ?_, ?_, ?_⟩
  · intro s
    rw [init_slot]
    refine ⟨?_, ?_, ?_, rfl, rfl⟩
    · simp only [State.waits, init, emptyQueue]
      rw [sum_zero _ _ (by intro w hw; rw [List.eq_of_mem_replicate hw]; rfl)]
      simp [List.count_replicate, DispatcherPc.waits, MainPc.waits]
    · simp only [State.runs, init]
      rw [sum_zero _ _ (by intro w hw; rw [List.eq_of_mem_replicate hw]; rfl)]
      rfl
    · simp only [State.sets, init]
      rw [sum_zero _ _ (by intro w hw; rw [List.eq_of_mem_replicate hw]; rfl)]
      rfl
  · intro w hw
    rw [List.eq_of_mem_replicate hw]
    trivial
  · intro s t j hs
    rw [init_slot] at hs
    exact nomatch hs
  all_goals
    first
    | (intro j; simp [init]; done)
    | (intro newer j older h; simp [init] at h; done)
    | (intro newer i j older h; simp [init] at h; done)

theorem inv_run {n : Nat} {acts : List Act} {st : State} (h : Run Calm n acts st) : Inv st := by
  induction h with
  | start => exact inv_init n
  | next hr hc hs ih => exact inv_step ih (handleInv_run hr).block hc hs

end Tm.Async
