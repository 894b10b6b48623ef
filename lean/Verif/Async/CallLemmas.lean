import Verif.Async.MainLemmas

/-!
# Waiting, freeing and the calls of the main thread keep the invariant
-/

namespace Tm.Async

theorem popSlot_ok {st st' : State} {s : Nat} {b : Bool} (h : popSlot st s = .ok (st', b)) :
    ¬ (st.slot s).ringPos < 0 ∧ ∃ work : Queue, st' = { st with work := work } ∧
      work.readSem = st.work.readSem ∧ work.writeSem = st.work.writeSem ∧ work.readPos = st.work.readPos ∧
      work.writePos = st.work.writePos ∧ work.written = st.work.written ∧ work.taken = st.work.taken ∧
      work.ring.length = st.work.ring.length ∧
      (∀ p : Nat, work.ring[p]? = st.work.ring[p]? ∨ work.ring[p]? = some none) ∧
      ∀ t, work.ring.count (some t) + (if b = true ∧ s = t then 1 else 0) = st.work.ring.count (some t) := by
  unfold popSlot at h
  obtain ⟨x, hx, h⟩ := bind_ok h
  rw [slot_of_getElem? (rd_ok hx)]
  split at h
  · exact nomatch h
  rename_i hpos
  obtain ⟨r, hr, h⟩ := bind_ok h
  have hr := rd_ok hr
  refine ⟨hpos, ?_⟩
  split at h
  · rename_i hrs
    cases h
    refine ⟨_, rfl, rfl, rfl, rfl, rfl, rfl, rfl, by simp, ?_, ?_⟩
    · intro p
      simp only [List.getElem?_set]
      by_cases hp : x.ringPos.toNat = p
      · subst hp
        have := (List.getElem?_eq_some_iff.mp hr).1
        simp [this]
      · simp [hp]
    · intro t
      have := count_set _ _ _ none (some t) hr
      subst hrs
      simpa using this
  · cases h
    exact ⟨st.work, rfl, rfl, rfl, rfl, rfl, rfl, rfl, rfl, fun _ => .inl rfl, fun t => by simp⟩

theorem set_signaled {st : State} {s : Nat} {x : Slot} (hx : st.slots[s]? = some x) (hs : x.signaled = true) :
    st.slots.set s { x with signaled := true } = st.slots := by
  have : ({ x with signaled := true } : Slot) = x := by cases x; simp_all
  rw [this]
  apply List.ext_getElem?
  intro t
  rw [List.getElem?_set]
  by_cases hst : s = t
  · subst hst
    have := (List.getElem?_eq_some_iff.mp hx).1
    simp only [if_true, this]
    exact hx.symm
  · simp [hst]

/-- One step of executing a work in the main thread. -/
theorem inv_mainExec {st st' : State} {e : Exec} {e' : Option Exec} (h : Inv st) (hm : st.main = .exec e)
    (hs : execStep st e = .ok (st', e')) :
    Inv { st' with main := match e' with
      | some e => .exec e
      | none => .idle } := by
  have hok : ExecOk st e := by
    have := h.main
    rw [hm] at this
    exact this
  have hpu : ∀ t, false = st.main.pushing t := fun t => by rw [hm]; rfl
  cases e with
  | start s =>
    simp only [execStep] at hs
    obtain ⟨x, hr, hs⟩ := bind_ok hs
    have hx := slot_of_getElem? (rd_ok hr)
    cases hj : x.job with
    | none => rw [hj] at hs; exact nomatch hs
    | some j =>
      rw [hj] at hs
      cases hs
      have hjj : (st.slot s).job = some j := by rw [hx]; exact hj
      have k : Keeps st { st.say (.started j) with main := .exec (.running s j) } :=
        Keeps.of_eq rfl fun _ => List.mem_cons_of_mem _
      refine h.start hjj rfl rfl rfl ?_ ?_ ?_ hpu (fun w hw => k.worker (h.workers w hw)) hjj
      all_goals
        intro t
        simp only [State.waits, State.runs, State.sets, State.say, hm, MainPc.waits, MainPc.runs, MainPc.sets, Exec.waits, Exec.runs, Exec.sets]
        try omega
  | running s j =>
    cases hs
    have k : Keeps st { st.say (.finished j) with main := .exec (.mark s j) } :=
      Keeps.of_eq rfl fun _ => List.mem_cons_of_mem _
    refine h.finish rfl rfl rfl ?_ ?_ ?_ hpu
      (fun w hw => k.worker (h.workers w hw)) ⟨hok, List.mem_cons_self⟩
    all_goals
      intro t
      simp only [State.waits, State.runs, State.sets, State.say, hm, MainPc.waits, MainPc.runs, MainPc.sets, Exec.waits, Exec.runs, Exec.sets]
      try omega
  | mark s j =>
    simp only [execStep, State.update] at hs
    obtain ⟨st1, hs1, hs⟩ := bind_ok hs
    obtain ⟨x, hr, hs1⟩ := bind_ok hs1
    cases hs1
    cases hs
    have hx := rd_ok hr
    have hxs := slot_of_getElem? hx
    have hsl := slot_set (st := st) (st' := { st with slots := st.slots.set s { x with signaled := true }, main := .exec (.set s) }) hx rfl
    have k : Keeps st { st with slots := st.slots.set s { x with signaled := true }, main := .exec (.set s) } := by
      refine ⟨?_, ?_, ?_, fun _ => id⟩ <;> intro t <;> rw [hsl] <;> by_cases hst : s = t
      all_goals first | (subst hst; simp [hxs]) | simp [hst]
    refine h.mark hx (by rw [← hxs]; exact hok.1) hok.2 rfl rfl rfl ?_ ?_ ?_ hpu
      (fun w hw => k.worker (h.workers w hw)) trivial
    all_goals
      intro t
      simp only [State.waits, State.runs, State.sets, hm, MainPc.waits, MainPc.runs, MainPc.sets, Exec.waits, Exec.runs, Exec.sets]
      try omega
  | set s =>
    simp only [execStep, State.update] at hs
    obtain ⟨st1, hs1, hs⟩ := bind_ok hs
    obtain ⟨x, hr, hs1⟩ := bind_ok hs1
    cases hs1
    cases hs
    have hx := rd_ok hr
    have hxs := slot_of_getElem? hx
    have hsl := slot_set (st := st) (st' := { st with slots := st.slots.set s { x with event := true }, main := .idle }) hx rfl
    have k : Keeps st { st with slots := st.slots.set s { x with event := true }, main := .idle } := by
      refine ⟨?_, ?_, ?_, fun _ => id⟩ <;> intro t <;> rw [hsl] <;> by_cases hst : s = t
      all_goals first | (subst hst; simp [hxs]) | simp [hst]
    refine h.set hx rfl rfl rfl ?_ ?_ ?_ hpu
      (fun w hw => k.worker (h.workers w hw)) trivial
    all_goals
      intro t
      simp only [State.waits, State.runs, State.sets, hm, MainPc.waits, MainPc.runs, MainPc.sets, Exec.waits, Exec.runs, Exec.sets]
      try omega

/-- Freeing a work. -/
theorem inv_freeEnd {st st' : State} {s : Nat} {taken : Bool} (h : Inv st) (hm : st.main = .freeEnd s taken)
    (hq : .exec (.set s) ∉ st.workers) (hs : freeEnd st s = .ok (some st')) : Inv st' := by
  have hok := h.main
  rw [hm] at hok
  unfold freeEnd at hs
  obtain ⟨x, hx, hs⟩ := bind_ok hs
  obtain ⟨j, hj, hs⟩ := bind_ok hs
  obtain ⟨u, hu, hs⟩ := bind_ok hs
  obtain ⟨blocks, hb, hs⟩ := bind_ok hs
  cases hs
  have hx := rd_ok hx
  have hxs := slot_of_getElem? hx
  have hj := jobOf_ok hj
  have hslot := h.slots s
  unfold SlotOk at hslot
  rw [hj] at hslot
  dsimp only at hslot
  rw [hxs] at hslot hj
  obtain ⟨h1, h2, h3, h4, h5, h6, h7, h8, h9⟩ := hslot
  -- what is to be freed is in no other place
  have hsets : st.sets s = 0 := by
    simp only [State.sets, hm, MainPc.sets, Nat.add_zero]
    apply sum_zero
    intro w hw
    cases w with
    | exec e =>
      cases e with
      | set t =>
        by_cases hts : t = s
        · subst hts; exact absurd hw hq
        · simp [WorkerPc.sets, Exec.sets, hts]
      | _ => rfl
    | _ => rfl
  have hcond : x.signaled = true ∨ x.ringPos < 0 := by
    unfold assert at hu
    split at hu
    · rename_i hc; simpa using hc
    · exact nomatch hu
  have hpush : MainPc.pushing s (.freeEnd s taken) = false := rfl
  have hzero : st.waits s = 0 ∧ st.runs s = 0 := by
    rw [hm, hpush] at h2
    rcases hcond with hc | hc
    · rw [hc] at h2; simp at h2; omega
    · simp only [home, hc, and_self, if_true] at h2; omega
  have hnt : taken = false := by
    cases taken with
    | false => rfl
    | true =>
      have : st.waits s ≥ 1 := by simp [State.waits, hm, MainPc.waits]
      omega
  subst hnt
  have hsl := slot_set (st := st) (st' := { st.say (.freed s j) with
    slots := st.slots.set s { x with event := false, job := none, signaled := false, ringPos := -1, progress := 0, cancelled := false },
    blocks := blocks, main := .idle }) hx rfl
  have hfin : .started j ∈ st.log → .finished j ∈ st.log := by
    intro hst
    apply h4
    have := List.count_pos_iff.mpr hst
    rw [h3] at this
    cases hsg : x.signaled with
    | true => rfl
    | false => rw [hsg] at this; simp at this; omega
  refine ⟨?_, ?_, trivial, ?_, ?_, ?_, ?_, ?_, ?_, once_cons h.once nofun, waitsHold_cons h.waits nofun, ?_,
    progressHolds_cons h.progress nofun, cancelHolds_cons h.cancel nofun⟩
  · intro t
    rw [hsl]
    by_cases hst : s = t
    · subst hst
      rw [if_pos rfl]
      unfold SlotOk
      dsimp only
      refine ⟨?_, ?_, ?_, rfl, rfl⟩
      · have := hzero.1; simp only [State.waits, State.say, hm, MainPc.waits] at this ⊢; omega
      · have := hzero.2; simp only [State.runs, State.say, hm, MainPc.runs] at this ⊢; omega
      · have := hsets; simp only [State.sets, State.say, hm, MainPc.sets] at this ⊢; omega
    · rw [if_neg hst]
      have := (h.slots t).say (e := .freed s j) fun k hk => ⟨nofun, nofun, nofun⟩
      refine this.transfer ?_ ?_ ?_ ?_
      · simp only [State.waits, State.say, hm, MainPc.waits, MainPc.pushing]
      · intro _; simp only [State.waits, State.say, hm, MainPc.waits]
      · simp only [State.runs, State.say, hm, MainPc.runs]
      · simp only [State.sets, State.say, hm, MainPc.sets]
  · intro w hw
    have hwo := h.workers w hw
    have hne : ∀ t k e, w = .exec e → e.runs t = 1 → (st.slot t).job = some k → t ≠ s := by
      intro t k e he hr hk hts
      subst hts he
      have : st.runs t ≥ 1 := by
        simp only [State.runs]
        have : e.runs t ≤ (st.workers.map (WorkerPc.runs t)).sum := le_sum (WorkerPc.runs t) st.workers _ hw
        omega
      omega
    cases w with
    | exec e =>
      cases e with
      | running t k =>
        show (State.slot _ t).job = some k
        rw [hsl, if_neg (Ne.symm (hne t k _ rfl (by simp [Exec.runs]) hwo))]
        exact hwo
      | mark t k =>
        refine ⟨?_, List.mem_cons_of_mem _ hwo.2⟩
        show (State.slot _ t).job = some k
        rw [hsl, if_neg (Ne.symm (hne t k _ rfl (by simp [Exec.runs]) hwo.1))]
        exact hwo.1
      | _ => trivial
    | _ => trivial
  · intro t u k ht hu
    rw [hsl] at ht hu
    by_cases h1 : s = t
    · rw [if_pos h1] at ht; exact nomatch ht
    by_cases h2 : s = u
    · rw [if_pos h2] at hu; exact nomatch hu
    rw [if_neg h1] at ht
    rw [if_neg h2] at hu
    exact h.distinct t u k ht hu
  · intro k hk
    rcases List.mem_cons.mp hk with hk | hk
    · exact nomatch hk
    · exact h.started k hk
  · intro k hk
    show lastReport k (.freed s j :: st.log) = 0
    rw [lastReport_append _ (.freed s j) _ nofun]
    exact h.reported k hk
  · intro k hk
    rcases List.mem_cons.mp hk with hk | hk
    · exact nomatch hk
    · exact h.cancelled k hk
  · intro k hk
    rcases List.mem_cons.mp hk with hk | hk
    · exact nomatch hk
    · obtain ⟨d1, d2⟩ := h.dispatched k hk
      refine ⟨d1, ?_⟩
      rcases d2 with d2 | ⟨t, d2, d3⟩
      · exact .inl ⟨List.mem_cons_of_mem _ d2.1, d2.2.imp fun _ => List.mem_cons_of_mem _⟩
      · by_cases hst : s = t
        · subst hst
          left
          rw [hxs] at d2 d3
          rw [hj] at d2
          cases d2
          refine ⟨List.mem_cons_of_mem _ (h4 ?_), s, List.mem_cons_self⟩
          rcases hcond with hc | hc
          · exact hc
          · exact absurd hc d3
        · right
          exact ⟨t, by rw [hsl, if_neg hst]; exact d2, by rw [hsl, if_neg hst]; exact d3⟩
  · intro i k hk
    rcases List.mem_cons.mp hk with hk | hk
    · cases hk
      refine ⟨h1, fun t => ?_⟩
      rw [hsl]
      by_cases hst : s = t
      · rw [if_pos hst]; nofun
      · rw [if_neg hst]
        intro ht
        exact hst (h.distinct s t j (by rw [hxs]; exact hj) ht)
    · obtain ⟨f1, f2⟩ := h.freed i k hk
      refine ⟨f1, fun t => ?_⟩
      rw [hsl]
      by_cases hst : s = t
      · rw [if_pos hst]; nofun
      · rw [if_neg hst]; exact f2 t
  · exact freesHold_cons h.frees nofun fun i k hk => by cases hk; exact hfin

/-- One step of the main thread inside of the library. -/
theorem inv_main {st st' : State} (h : Inv st)
    (hq : ∀ s taken, st.main = .freeEnd s taken → .exec (.set s) ∉ st.workers)
    (hs : mainStep st false = .ok (some st')) : Inv st' := by
  have hok := h.main
  unfold mainStep at hs
  have skip : ∀ m' : MainPc, (∀ s, m'.waits s = st.main.waits s) → (∀ s, m'.pushing s = st.main.pushing s) →
      (∀ s, m'.runs s = st.main.runs s) → (∀ s, m'.sets s = st.main.sets s) → MainOk st m' →
      Inv { st with main := m' } := fun m' h1 h2 h3 h4 h5 => h.mainSkip st.work st.dispatch m' rfl rfl h1 h2 h3 h4 h5
  cases hm : st.main with
  | idle => rw [hm] at hs; exact nomatch hs
  | push q s p => rw [hm] at hs; exact inv_push h hm hs
  | waiting s timed =>
    rw [hm] at hs hok skip
    dsimp only at hs
    obtain ⟨x, hx, hs⟩ := bind_ok hs
    have hxs := slot_of_getElem? (rd_ok hx)
    split at hs
    · rename_i hsig
      have h' := skip .idle (fun _ => rfl) (fun _ => rfl) (fun _ => rfl) (fun _ => rfl) trivial
      exact h'.waitReturn (s := s) hs (by show (st.slot s).signaled = true; rw [hxs]; exact hsig) rfl
    · split at hs
      · cases hs
        exact skip _ (fun _ => rfl) (fun _ => rfl) (fun _ => rfl) (fun _ => rfl) ⟨hok, nofun⟩
      · cases hs
        exact skip _ (fun _ => rfl) (fun _ => rfl) (fun _ => rfl) (fun _ => rfl) hok
  | steal s =>
    rw [hm] at hs hok
    dsimp only at hs
    obtain ⟨⟨st1, ok⟩, hp, hs⟩ := bind_ok hs
    obtain ⟨hpos, work, rfl, -, -, -, -, -, -, -, -, hc⟩ := popSlot_ok hp
    cases ok with
    | true =>
      cases hs
      refine h.mainMove work st.dispatch _ (fun t => ?_) (fun t _ => ?_) (fun t => by rw [hm]; rfl) (fun t => by rw [hm]; rfl) trivial
      all_goals
        have := hc t
        rw [hm]
        simp only [MainPc.waits, MainPc.pushing, Exec.waits, true_and] at this ⊢
        omega
    | false =>
      cases hs
      refine h.mainMove work st.dispatch _ (fun t => ?_) (fun t _ => ?_) (fun t => by rw [hm]; rfl) (fun t => by rw [hm]; rfl) ⟨hok, fun _ => hpos⟩
      all_goals
        have := hc t
        rw [hm]
        simp only [MainPc.waits, MainPc.pushing, Bool.false_eq_true, false_and, if_false] at this ⊢
        omega
  | exec e =>
    rw [hm] at hs
    dsimp only at hs
    obtain ⟨⟨st1, e'⟩, hp, hs⟩ := bind_ok hs
    have h' := inv_mainExec h hm hp
    cases e' with
    | some e1 => cases hs; exact h'
    | none =>
      cases e with
      | set s =>
        dsimp only at hs
        have hsig : (st1.slot s).signaled = true := by
          have hk := (h.slots s)
          have hsets : 0 < st.sets s := by simp [State.sets, hm, MainPc.sets, Exec.sets]
          unfold SlotOk at hk
          cases hj : (st.slot s).job with
          | none => rw [hj] at hk; dsimp only at hk; omega
          | some j =>
            rw [hj] at hk
            have hsg := hk.2.2.2.2.2.1 hsets
            simp only [execStep, State.update] at hp
            obtain ⟨st2, hs2, hp⟩ := bind_ok hp
            obtain ⟨x, hr, hs2⟩ := bind_ok hs2
            cases hs2
            cases hp
            rw [slot_set (rd_ok hr) rfl, if_pos rfl]
            rw [slot_of_getElem? (rd_ok hr)] at hsg
            exact hsg
        exact h'.waitReturn (s := s) hs hsig rfl
      | _ => exact nomatch hs
  | block s timed =>
    rw [hm] at hs hok skip
    dsimp only at hs
    obtain ⟨x, hx, hs⟩ := bind_ok hs
    have hxs := slot_of_getElem? (rd_ok hx)
    split at hs
    · rename_i hev
      cases hs
      refine skip _ (fun _ => rfl) (fun _ => rfl) (fun _ => rfl) (fun _ => rfl) ⟨hok.1, rfl, ?_⟩
      have hk := h.slots s
      unfold SlotOk at hk
      obtain ⟨j, hj⟩ := Option.isSome_iff_exists.mp hok.1
      rw [hj] at hk
      exact hk.2.2.2.2.1 (by rw [hxs]; exact hev)
    · rw [Bool.and_false] at hs
      exact nomatch hs
  | mark s ok =>
    rw [hm] at hs hok skip
    dsimp only [State.update] at hs
    obtain ⟨st1, hs1, hs⟩ := bind_ok hs
    obtain ⟨x, hx, hs1⟩ := bind_ok hs1
    cases hs1
    have hx := rd_ok hx
    have hxs := slot_of_getElem? hx
    have hsg : x.signaled = true := by rw [← hxs]; exact hok.2.2
    rw [set_signaled hx hsg, hok.2.1] at hs
    have h' := skip .idle (fun _ => rfl) (fun _ => rfl) (fun _ => rfl) (fun _ => rfl) trivial
    exact h'.waitReturn (s := s) hs hok.2.2 rfl
  | free s =>
    rw [hm] at hs hok skip
    dsimp only at hs
    obtain ⟨x, hx, hs⟩ := bind_ok hs
    have hxs := slot_of_getElem? (rd_ok hx)
    split at hs
    · rename_i hc
      cases hs
      refine skip _ (fun _ => rfl) (fun _ => rfl) (fun _ => rfl) (fun _ => rfl) ⟨hok, ?_⟩
      rw [hxs]
      omega
    · cases hs
      exact skip _ (fun _ => rfl) (fun _ => rfl) (fun _ => rfl) (fun _ => rfl) ⟨hok, nofun⟩
  | freeSteal s =>
    rw [hm] at hs hok
    dsimp only at hs
    obtain ⟨⟨st1, ok⟩, hp, hs⟩ := bind_ok hs
    obtain ⟨hpos, work, rfl, -, -, -, -, -, -, -, -, hc⟩ := popSlot_ok hp
    cases ok with
    | true =>
      cases hs
      refine h.mainMove work st.dispatch _ (fun t => ?_) (fun t _ => ?_) (fun t => by rw [hm]; rfl) (fun t => by rw [hm]; rfl) ⟨hok.1, fun _ => hok.2⟩
      all_goals
        have := hc t
        rw [hm]
        simp only [MainPc.waits, MainPc.pushing, true_and] at this ⊢
        omega
    | false =>
      cases hs
      refine h.mainMove work st.dispatch _ (fun t => ?_) (fun t _ => ?_) (fun t => by rw [hm]; rfl) (fun t => by rw [hm]; rfl) hok
      all_goals
        have := hc t
        rw [hm]
        simp only [MainPc.waits, MainPc.pushing, Bool.false_eq_true, false_and, if_false] at this ⊢
        omega
  | freeBlock s =>
    rw [hm] at hs hok skip
    dsimp only at hs
    obtain ⟨x, hx, hs⟩ := bind_ok hs
    have hxs := slot_of_getElem? (rd_ok hx)
    split at hs
    · rename_i hev
      cases hs
      refine skip _ (fun _ => rfl) (fun _ => rfl) (fun _ => rfl) (fun _ => rfl) ⟨hok.1, ?_⟩
      have hk := h.slots s
      unfold SlotOk at hk
      obtain ⟨j, hj⟩ := Option.isSome_iff_exists.mp hok.1
      rw [hj] at hk
      exact hk.2.2.2.2.1 (by rw [hxs]; exact hev)
    · exact nomatch hs
  | freeMark s =>
    rw [hm] at hs hok skip
    dsimp only [State.update] at hs
    obtain ⟨st1, hs1, hs⟩ := bind_ok hs
    obtain ⟨x, hx, hs1⟩ := bind_ok hs1
    cases hs1
    have hx := rd_ok hx
    have hxs := slot_of_getElem? hx
    have hsg : x.signaled = true := by rw [← hxs]; exact hok.2
    rw [set_signaled hx hsg] at hs
    cases hs
    exact skip _ (fun _ => rfl) (fun _ => rfl) (fun _ => rfl) (fun _ => rfl) ⟨hok.1, nofun⟩
  | freeEnd s taken =>
    rw [hm] at hs
    exact inv_freeEnd h hm (hq s taken hm) hs

end Tm.Async
