import Verif.Async.WorkerLemmas

/-!
# Steps of the main thread keep the invariant
-/

namespace Tm.Async

theorem jobOf_ok {st : State} {s j : Nat} (h : st.jobOf s = .ok j) : (st.slot s).job = some j := by
  unfold State.jobOf at h
  cases hr : rd st.slots s with
  | error e => rw [hr] at h; exact nomatch h
  | ok x =>
    rw [hr, ok_bind] at h
    rw [slot_of_getElem? (rd_ok hr)]
    cases hj : x.job with
    | none => rw [hj] at h; exact nomatch h
    | some k => rw [hj] at h; cases h; rfl

theorem bind_ok {α β : Type} {x : C α} {f : α → C β} {b : β} (h : (x >>= f) = .ok b) : ∃ a, x = .ok a ∧ f a = .ok b := by
  cases x with
  | error e => exact nomatch h
  | ok a => exact ⟨a, rfl, h⟩

theorem Inv.job_lt {st : State} (h : Inv st) {s j : Nat} (hj : (st.slot s).job = some j) : j < st.jobs := by
  have := h.slots s
  unfold SlotOk at this
  rw [hj] at this
  exact this.1

theorem Inv.finished {st : State} (h : Inv st) {s j : Nat} (hj : (st.slot s).job = some j)
    (hs : (st.slot s).signaled = true) : .finished j ∈ st.log := by
  have := h.slots s
  unfold SlotOk at this
  rw [hj] at this
  exact this.2.2.2.1 hs

/-- An event happens that leaves every slot as it is. -/
theorem Inv.say {st : State} (h : Inv st) (e : Event) (he : EventOk st (st.say e) e)
    (hu : (∀ j, e ≠ .started j) ∧ (∀ j v, e ≠ .reported j v) ∧ (∀ j, e ≠ .cancelled j)) : Inv (st.say e) := by
  have k : Keeps st (st.say e) := Keeps.of_eq rfl fun _ => List.mem_cons_of_mem _
  refine h.happen e rfl rfl (fun _ => rfl) (fun _ => id) ?_ (fun w hw => k.worker (h.workers w hw)) (k.main h.main) he
  intro s
  exact (h.slots s).say fun j hj => ⟨hu.1 j, hu.2.1 j, hu.2.2 j⟩

/-- The main thread moves on. -/
theorem Inv.mainMove {st : State} (h : Inv st) (work dispatch : Queue) (m' : MainPc)
    (hw : ∀ s, work.ring.count (some s) + dispatch.ring.count (some s) + m'.waits s + home (st.slot s) (m'.pushing s) =
      st.work.ring.count (some s) + st.dispatch.ring.count (some s) + st.main.waits s +
        home (st.slot s) (st.main.pushing s))
    (hn : ∀ s, (st.slot s).job = none →
      work.ring.count (some s) + dispatch.ring.count (some s) + m'.waits s =
      st.work.ring.count (some s) + st.dispatch.ring.count (some s) + st.main.waits s)
    (hr : ∀ s, m'.runs s = st.main.runs s) (ht : ∀ s, m'.sets s = st.main.sets s) (hok : MainOk st m') :
    Inv { st with work := work, dispatch := dispatch, main := m' } := by
  have k : Keeps st { st with work := work, dispatch := dispatch, main := m' } := Keeps.of_eq rfl fun _ => id
  refine h.move rfl rfl (fun _ => rfl) (fun _ => id) ?_ (fun w hw => k.worker (h.workers w hw)) (k.main hok)
  intro s
  refine (h.slots s).transfer (w := st.waits s) ?_ ?_ ?_ ?_
  · have := hw s
    simp only [State.waits]
    simp only [State.slot] at this ⊢
    omega
  · intro hj
    have := hn s hj
    simp only [State.waits]
    omega
  · simp only [State.runs, hr]
  · simp only [State.sets, ht]

/-- The main thread moves on without anything being moved. -/
theorem Inv.mainSkip {st : State} (h : Inv st) (work dispatch : Queue) (m' : MainPc)
    (h1 : work.ring = st.work.ring) (h2 : dispatch.ring = st.dispatch.ring)
    (hw : ∀ s, m'.waits s = st.main.waits s) (hp : ∀ s, m'.pushing s = st.main.pushing s)
    (hr : ∀ s, m'.runs s = st.main.runs s) (ht : ∀ s, m'.sets s = st.main.sets s) (hok : MainOk st m') :
    Inv { st with work := work, dispatch := dispatch, main := m' } := by
  refine h.mainMove work dispatch m' ?_ ?_ hr ht hok
  · intro s; rw [h1, h2, hw, hp]
  · intro s _; rw [h1, h2, hw]

theorem neutral {st st' : State} {e : Event} (h1 : ∀ j, e ≠ .started j) (h2 : ∀ j v, e ≠ .reported j v)
    (h3 : ∀ j, e ≠ .cancelled j) (h4 : ∀ j, e ≠ .dispatched j) (h5 : ∀ j, e ≠ .waited j)
    (h6 : ∀ j v, e ≠ .progress j v) (h7 : ∀ j b, e ≠ .asked j b) (h8 : ∀ i j, e ≠ .freed i j) : EventOk st st' e :=
  ⟨fun j hj => absurd hj (h1 j), fun j v hj => absurd hj (h2 j v), fun j hj => absurd hj (h3 j),
    fun j hj => absurd hj (h4 j), fun j hj => absurd hj (h5 j), fun j v hj => absurd hj (h6 j v),
    fun j b hj => absurd hj (h7 j b), h8⟩

/-- The main thread returns from a wait. -/
theorem Inv.waitReturn {st st' : State} {s : Nat} (h : Inv st) (hs : waitReturn st s true = .ok (some st'))
    (hsig : (st.slot s).signaled = true) (hm : st.main = .idle) : Inv st' := by
  unfold Async.waitReturn at hs
  obtain ⟨j, hj, hs⟩ := bind_ok hs
  cases hs
  have hj' := jobOf_ok hj
  have hf := h.finished hj' hsig
  have := h.say (.waited j) ⟨by nofun, by nofun, by nofun, by nofun, fun k hk => by cases hk; exact hf, by nofun, by nofun, by nofun⟩
    ⟨by nofun, by nofun, by nofun⟩
  rw [← hm]
  exact this

theorem waitReturn_main (st : State) (m : MainPc) (s : Nat) (b : Bool) :
    waitReturn { st with main := m } s b = waitReturn st s b := rfl

theorem inv_pushFailed {st st' : State} {q : Target} {s : Nat} {p : PushStage} (h : Inv st) (hm : st.main = .push q s p)
    (hp : p.holds = true) (hs : pushFailed st q s = .ok st') : Inv st' := by
  unfold pushFailed at hs
  obtain ⟨j, hj, hs⟩ := bind_ok hs
  have hok := h.main
  rw [hm] at hok
  have hpos : (st.slot s).ringPos < 0 := by
    have := hok.2
    cases p <;> simp [PushStage.holds] at hp this ⊢ <;> exact this
  cases q with
  | work =>
    replace hs : Except.ok _ = Except.ok _ := hs
    cases hs
    have h' := h.say (.overflowed j) (neutral nofun nofun nofun nofun nofun nofun nofun nofun) ⟨nofun, nofun, nofun⟩
    refine h'.mainSkip (st.say (.overflowed j)).work (st.say (.overflowed j)).dispatch _ rfl rfl ?_ ?_ ?_ ?_ ?_
    · intro t
      show _ = st.main.waits t
      rw [hm]
      have e : PushStage.wait.holds = true := rfl
      simp [MainPc.waits, hp, e]
    · intro t
      show _ = st.main.pushing t
      rw [hm]; rfl
    · intro t
      show _ = st.main.runs t
      rw [hm]; rfl
    · intro t
      show _ = st.main.sets t
      rw [hm]; rfl
    · exact ⟨hok.1, by simpa [State.slot, State.say] using hpos⟩
  | dispatch =>
    cases hs
    have h' := h.say (.undispatched j) (neutral nofun nofun nofun nofun nofun nofun nofun nofun) ⟨nofun, nofun, nofun⟩
    refine h'.mainMove (st.say (.undispatched j)).work (st.say (.undispatched j)).dispatch _ ?_ ?_ ?_ ?_ trivial
    · intro t
      show _ + _ + _ + _ = _ + _ + st.main.waits t + home (st.slot t) (st.main.pushing t)
      rw [hm]
      show _ + _ + _ + home (st.slot t) _ = _
      by_cases hst : s = t
      · subst hst
        simp [MainPc.waits, hp, home, MainPc.pushing, hpos, State.say]
      · simp [MainPc.waits, hst, home, MainPc.pushing, State.say]
    · intro t ht
      have ht' : (st.slot t).job = none := ht
      have hst : s ≠ t := by
        intro hst
        subst hst
        have h1 := hok.1
        rw [ht'] at h1
        exact absurd h1 (by simp)
      show _ = _ + _ + st.main.waits t
      rw [hm]
      simp [MainPc.waits, hst, State.say]
    · intro t
      show _ = st.main.runs t
      rw [hm]; rfl
    · intro t
      show _ = st.main.sets t
      rw [hm]; rfl

theorem inv_push {st st' : State} {q : Target} {s : Nat} {p : PushStage} (h : Inv st) (hm : st.main = .push q s p)
    (hs : pushStep st q s p = .ok (some st')) : Inv st' := by
  have hok := h.main
  rw [hm] at hok
  cases p with
  | wait =>
    simp only [pushStep] at hs
    split at hs
    · cases q with
      | work =>
        obtain ⟨st1, h1, h2⟩ := bind_ok hs
        cases h2
        exact inv_pushFailed h hm rfl h1
      | dispatch => exact nomatch hs
    · cases q <;> cases hs
      · exact h.mainSkip _ st.dispatch _ rfl rfl (fun t => by rw [hm]; rfl) (fun t => by rw [hm]; rfl)
          (fun t => by rw [hm]; rfl) (fun t => by rw [hm]; rfl) ⟨hok.1, by simpa using hok.2⟩
      · exact h.mainSkip st.work _ _ rfl rfl (fun t => by rw [hm]; rfl) (fun t => by rw [hm]; rfl)
          (fun t => by rw [hm]; rfl) (fun t => by rw [hm]; rfl) ⟨hok.1, by simpa using hok.2⟩
  | load =>
    simp only [pushStep] at hs
    cases hs
    exact h.mainSkip st.work st.dispatch _ rfl rfl (fun t => by rw [hm]; rfl) (fun t => by rw [hm]; rfl)
      (fun t => by rw [hm]; rfl) (fun t => by rw [hm]; rfl) ⟨hok.1, by simpa using hok.2⟩
  | cas pos =>
    simp only [pushStep] at hs
    split at hs
    · cases q <;> cases hs
      · exact h.mainSkip _ st.dispatch _ rfl rfl (fun t => by rw [hm]; rfl) (fun t => by rw [hm]; rfl)
          (fun t => by rw [hm]; rfl) (fun t => by rw [hm]; rfl) ⟨hok.1, by simpa using hok.2⟩
      · exact h.mainSkip st.work _ _ rfl rfl (fun t => by rw [hm]; rfl) (fun t => by rw [hm]; rfl)
          (fun t => by rw [hm]; rfl) (fun t => by rw [hm]; rfl) ⟨hok.1, by simpa using hok.2⟩
    · cases hs
      exact h.mainSkip st.work st.dispatch _ rfl rfl (fun t => by rw [hm]; rfl) (fun t => by rw [hm]; rfl)
        (fun t => by rw [hm]; rfl) (fun t => by rw [hm]; rfl) ⟨hok.1, by simpa using hok.2⟩
  | put pos =>
    simp only [pushStep] at hs
    obtain ⟨r, hr, hs⟩ := bind_ok hs
    cases r with
    | some u =>
      obtain ⟨st1, h1, h2⟩ := bind_ok hs
      cases h2
      exact inv_pushFailed h hm rfl h1
    | none =>
      have hc := fun t => count_set _ _ _ (some s) (some t) (rd_ok hr)
      have hok' : MainOk st (.push q s (.store pos)) := ⟨hok.1, by simpa using hok.2⟩
      cases q <;> cases hs
      · refine h.mainMove _ st.dispatch _ (fun t => ?_) (fun t _ => ?_) (fun t => by rw [hm]; rfl)
          (fun t => by rw [hm]; rfl) hok'
        all_goals
          have := hc t
          rw [hm]
          simp only [MainPc.waits, PushStage.holds, MainPc.pushing, State.queue, State.withQueue, Option.some.injEq] at this ⊢
          simp only [reduceCtorEq, if_false, and_true, and_false, Bool.false_eq_true] at this ⊢
          omega
      · refine h.mainMove st.work _ _ (fun t => ?_) (fun t _ => ?_) (fun t => by rw [hm]; rfl)
          (fun t => by rw [hm]; rfl) hok'
        all_goals
          have := hc t
          rw [hm]
          simp only [MainPc.waits, PushStage.holds, MainPc.pushing, State.queue, State.withQueue, Option.some.injEq] at this ⊢
          simp only [reduceCtorEq, if_false, and_true, and_false, Bool.false_eq_true] at this ⊢
          omega
  | store pos =>
    simp only [pushStep, State.update] at hs
    obtain ⟨x1, hx1, hs⟩ := bind_ok hs
    obtain ⟨x, hx, hx1⟩ := bind_ok hx1
    cases hx1
    cases hs
    have hx := rd_ok hx
    have hxs := slot_of_getElem? hx
    have hsl := slot_set (st := st) (st' := { st with slots := st.slots.set s { x with ringPos := (pos : Int) }, main := .push q s .release }) hx rfl
    have hneg : x.ringPos < 0 := by
      have := hok.2
      rw [hxs] at this
      simpa using this
    refine h.move rfl rfl ?_ ?_ ?_ ?_ ?_
    · intro t
      rw [hsl]
      by_cases hst : s = t
      · subst hst; simp [hxs]
      · simp [hst]
    · intro t
      rw [hsl]
      by_cases hst : s = t
      · subst hst; simp
      · simp [hst]
    · intro t
      have e1 : State.waits { st with slots := st.slots.set s { x with ringPos := (pos : Int) }, main := .push q s .release } t = st.waits t := by
        simp only [State.waits, hm]; rfl
      have e2 : State.runs { st with slots := st.slots.set s { x with ringPos := (pos : Int) }, main := .push q s .release } t = st.runs t := by
        simp only [State.runs, hm]; rfl
      have e3 : State.sets { st with slots := st.slots.set s { x with ringPos := (pos : Int) }, main := .push q s .release } t = st.sets t := by
        simp only [State.sets, hm]; rfl
      rw [hsl, e1, e2, e3]
      have := h.slots t
      by_cases hst : s = t
      · subst hst
        rw [if_pos rfl]
        rw [hxs, hm] at this
        unfold SlotOk home at this ⊢
        simpa [MainPc.pushing] using this
      · rw [if_neg hst]
        rw [hm] at this
        exact this
    · intro w hw
      have := h.workers w hw
      cases w with
      | exec e =>
        cases e with
        | running t j =>
          show (State.slot _ t).job = some j
          rw [hsl]
          have : (st.slot t).job = some j := this
          by_cases hst : s = t
          · subst hst; rw [if_pos rfl]; rw [← this, hxs]
          · rw [if_neg hst]; exact this
        | mark t j =>
          refine ⟨?_, this.2⟩
          show (State.slot _ t).job = some j
          rw [hsl]
          have : (st.slot t).job = some j := this.1
          by_cases hst : s = t
          · subst hst; rw [if_pos rfl]; rw [← this, hxs]
          · rw [if_neg hst]; exact this
        | _ => trivial
      | _ => trivial
    · refine ⟨?_, ?_⟩
      · show (State.slot _ s).job.isSome
        rw [hsl, if_pos rfl]
        have := hok.1
        rw [hxs] at this
        exact this
      · show _ ↔ ¬ (State.slot _ s).ringPos < 0
        rw [hsl, if_pos rfl]
        simp
  | release =>
    simp only [pushStep] at hs
    obtain ⟨j, hj, hs⟩ := bind_ok hs
    have hj := jobOf_ok hj
    have hpos : ¬ (st.slot s).ringPos < 0 := hok.2.mp rfl
    have h' := h.say (.dispatched j) ⟨nofun, nofun, nofun, fun k hk => by cases hk; exact ⟨h.job_lt hj, s, hj, hpos⟩,
      nofun, nofun, nofun, nofun⟩ ⟨nofun, nofun, nofun⟩
    have hw : ∀ t, MainPc.waits t .idle = (st.say (.dispatched j)).main.waits t := by
      intro t
      show _ = st.main.waits t
      rw [hm]; simp [MainPc.waits, PushStage.holds]
    have hh : ∀ t, home ((st.say (.dispatched j)).slot t) (MainPc.pushing t .idle) =
        home ((st.say (.dispatched j)).slot t) ((st.say (.dispatched j)).main.pushing t) := by
      intro t
      show home (st.slot t) _ = home (st.slot t) (st.main.pushing t)
      rw [hm]
      by_cases hst : s = t
      · subst hst; simp [home, hpos]
      · simp [home, MainPc.pushing, hst]
    cases q <;> cases hs
    · refine h'.mainMove _ st.dispatch _ (fun t => ?_) (fun t _ => ?_) ?_ ?_ trivial
      · rw [hw, hh]; rfl
      · rw [hw]; rfl
      · intro t; show _ = st.main.runs t; rw [hm]; rfl
      · intro t; show _ = st.main.sets t; rw [hm]; rfl
    · refine h'.mainMove st.work _ _ (fun t => ?_) (fun t _ => ?_) ?_ ?_ trivial
      · rw [hw, hh]; rfl
      · rw [hw]; rfl
      · intro t; show _ = st.main.runs t; rw [hm]; rfl
      · intro t; show _ = st.main.sets t; rw [hm]; rfl

end Tm.Async
