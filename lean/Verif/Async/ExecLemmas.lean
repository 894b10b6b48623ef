import Verif.Async.SlotLemmas

/-!
# Executing work keeps the invariant
-/

namespace Tm.Async

theorem rd_ok {α : Type} {l : List α} {i : Nat} {v : α} (h : rd l i = .ok v) : l[i]? = some v := by
  unfold rd at h
  cases hl : l[i]? with
  | none => rw [hl] at h; exact nomatch h
  | some x => rw [hl] at h; cases h; rfl

theorem slot_of_getElem? {st : State} {s : Nat} {x : Slot} (h : st.slots[s]? = some x) : st.slot s = x := by
  simp [State.slot, List.getD_eq_getElem?_getD, h]

theorem slot_eq {st st' : State} (h : st'.slots = st.slots) (s : Nat) : st'.slot s = st.slot s := by
  simp [State.slot, h]

theorem slot_set {st st' : State} {s : Nat} {x y : Slot} (h : st.slots[s]? = some x) (h' : st'.slots = st.slots.set s y)
    (t : Nat) : st'.slot t = if s = t then y else st.slot t := by
  have hlt : s < st.slots.length := (List.getElem?_eq_some_iff.mp h).1
  simp only [State.slot, h', List.getD_eq_getElem?_getD, List.getElem?_set]
  by_cases hst : s = t
  · subst hst; simp [hlt]
  · simp [hst]

/-- What other threads know is kept. -/
structure Keeps (st st' : State) : Prop where
  job : ∀ s, (st'.slot s).job = (st.slot s).job
  pos : ∀ s, (st'.slot s).ringPos = (st.slot s).ringPos
  signaled : ∀ s, (st.slot s).signaled = true → (st'.slot s).signaled = true
  log : ∀ e, e ∈ st.log → e ∈ st'.log

theorem Keeps.exec {st st' : State} (k : Keeps st st') {e : Exec} (h : ExecOk st e) : ExecOk st' e := by
  cases e with
  | running s j => exact (k.job s).trans h
  | mark s j => exact ⟨(k.job s).trans h.1, k.log _ h.2⟩
  | _ => trivial

theorem Keeps.worker {st st' : State} (k : Keeps st st') {w : WorkerPc} (h : WorkerOk st w) : WorkerOk st' w := by
  cases w with
  | exec e => exact k.exec h
  | _ => trivial

theorem Keeps.main {st st' : State} (k : Keeps st st') {m : MainPc} (h : MainOk st m) : MainOk st' m := by
  cases m with
  | exec e => exact k.exec h
  | mark s ok => exact ⟨by rw [k.job]; exact h.1, h.2.1, k.signaled s h.2.2⟩
  | freeMark s => exact ⟨by rw [k.job]; exact h.1, k.signaled s h.2⟩
  | idle => trivial
  | _ => simpa only [MainOk, k.job, k.pos] using h

theorem Keeps.of_eq {st st' : State} (h : st'.slots = st.slots) (hl : ∀ e, e ∈ st.log → e ∈ st'.log) :
    Keeps st st' where
  job s := by rw [slot_eq h]
  pos s := by rw [slot_eq h]
  signaled s := by rw [slot_eq h]; exact id
  log := hl

theorem Inv.start {st st' : State} {s j : Nat} (h : Inv st) (hj : (st.slot s).job = some j)
    (hslots : st'.slots = st.slots) (hjobs : st'.jobs = st.jobs)
    (hlog : st'.log = .started j :: st.log)
    (hw : ∀ t, st'.waits t + (if s = t then 1 else 0) = st.waits t)
    (hr : ∀ t, st'.runs t = st.runs t + if s = t then 1 else 0) (ht : ∀ t, st'.sets t = st.sets t)
    (hp : ∀ t, st'.main.pushing t = st.main.pushing t) (hworkers : ∀ w ∈ st'.workers, WorkerOk st' w)
    (hmain : MainOk st' st'.main) : Inv st' := by
  have hs := h.slots s
  have hws := hw s
  rw [if_pos rfl] at hws
  unfold SlotOk at hs
  rw [hj] at hs
  dsimp only at hs
  obtain ⟨h1, h2, h3, h4, h5, h6, h7, h8, h9⟩ := hs
  have hsig : (st.slot s).signaled = false := by
    cases hb : (st.slot s).signaled with
    | false => rfl
    | true => rw [hb] at h2; simp at h2; omega
  refine h.happen (.started j) hlog hjobs (fun t => by rw [slot_eq hslots]) (fun t => by rw [slot_eq hslots]; exact id) ?_
    hworkers hmain ?_
  · intro t
    rw [slot_eq hslots, hjobs, hlog, hr, ht, hp]
    by_cases hst : s = t
    · subst hst
      rw [if_pos rfl]
      unfold SlotOk
      rw [hj]
      dsimp only
      refine ⟨h1, by omega, ?_, ?_, h5, h6, h7, ?_, ?_⟩
      · rw [List.count_cons_self, h3]; omega
      · rw [hsig]; nofun
      · rw [lastReport_append _ _ _ (by nofun)]; exact h8
      · rw [h9]; simp
    · have hwt := hw t
      rw [if_neg hst] at hwt ⊢
      rw [Nat.add_zero] at hwt ⊢
      rw [hwt]
      refine (h.slots t).say ?_
      intro k hk
      refine ⟨?_, by nofun, by nofun⟩
      intro he
      cases he
      exact hst (h.distinct _ _ _ hj hk)
  · refine ⟨?_, by nofun, by nofun, by nofun, by nofun, by nofun, by nofun, by nofun⟩
    intro k hk
    cases hk
    refine ⟨h1, ?_, fun i hi => (h.freed i _ hi).2 s hj⟩
    rw [← List.count_eq_zero, h3, hsig]
    simp
    have := (st.slot s).signaled
    rw [hsig] at h2
    simp at h2
    omega

theorem Inv.finish {st st' : State} {j : Nat} (h : Inv st)
    (hslots : st'.slots = st.slots) (hjobs : st'.jobs = st.jobs)
    (hlog : st'.log = .finished j :: st.log)
    (hw : ∀ t, st'.waits t = st.waits t)
    (hr : ∀ t, st'.runs t = st.runs t) (ht : ∀ t, st'.sets t = st.sets t)
    (hp : ∀ t, st'.main.pushing t = st.main.pushing t) (hworkers : ∀ w ∈ st'.workers, WorkerOk st' w)
    (hmain : MainOk st' st'.main) : Inv st' := by
  refine h.happen (.finished j) hlog hjobs (fun t => by rw [slot_eq hslots]) (fun t => by rw [slot_eq hslots]; exact id) ?_
    hworkers hmain ?_
  · intro t
    rw [slot_eq hslots, hjobs, hlog, hr, ht, hp, hw]
    exact (h.slots t).say fun k hk => ⟨by nofun, by nofun, by nofun⟩
  · exact ⟨by nofun, by nofun, by nofun, by nofun, by nofun, by nofun, by nofun, by nofun⟩

theorem Inv.mark {st st' : State} {s j : Nat} {x : Slot} (h : Inv st) (hx : st.slots[s]? = some x) (hj : x.job = some j)
    (hf : .finished j ∈ st.log)
    (hslots : st'.slots = st.slots.set s { x with signaled := true }) (hjobs : st'.jobs = st.jobs)
    (hlog : st'.log = st.log)
    (hw : ∀ t, st'.waits t = st.waits t)
    (hr : ∀ t, st'.runs t + (if s = t then 1 else 0) = st.runs t)
    (ht : ∀ t, st'.sets t = st.sets t + if s = t then 1 else 0)
    (hp : ∀ t, st'.main.pushing t = st.main.pushing t) (hworkers : ∀ w ∈ st'.workers, WorkerOk st' w)
    (hmain : MainOk st' st'.main) : Inv st' := by
  have hsl := slot_set hx hslots
  have hxs := slot_of_getElem? hx
  have hs := h.slots s
  rw [hxs] at hs
  have hrs := hr s
  rw [if_pos rfl] at hrs
  unfold SlotOk at hs
  rw [hj] at hs
  dsimp only at hs
  obtain ⟨h1, h2, h3, h4, h5, h6, h7, h8, h9⟩ := hs
  have hsig : x.signaled = false := by
    cases hb : x.signaled with
    | false => rfl
    | true => rw [hb] at h2; simp at h2; omega
  refine h.move hlog hjobs ?_ ?_ ?_ hworkers hmain
  · intro t
    rw [hsl]
    by_cases hst : s = t
    · subst hst; simp [hxs]
    · simp [hst]
  · intro t
    rw [hsl]
    by_cases hst : s = t
    · subst hst; simp [hxs]
    · simp [hst]
  · intro t
    rw [hsl, hjobs, hlog, ht, hp, hw]
    by_cases hst : s = t
    · subst hst
      rw [if_pos rfl, if_pos rfl]
      unfold SlotOk
      dsimp only
      rw [hj]
      dsimp only
      rw [hsig] at h2 h3
      simp only [Bool.toNat_false, Bool.toNat_true] at h2 h3 ⊢
      unfold home at h2 ⊢
      dsimp only
      exact ⟨h1, by omega, by omega, fun _ => hf, fun _ => trivial, fun _ => trivial, fun _ => .inr (by omega), h8, h9⟩
    · have hrt := hr t
      rw [if_neg hst] at hrt ⊢
      rw [if_neg hst, Nat.add_zero]
      rw [Nat.add_zero] at hrt
      rw [hrt]
      exact h.slots t

theorem Inv.set {st st' : State} {s : Nat} {x : Slot} (h : Inv st) (hx : st.slots[s]? = some x)
    (hslots : st'.slots = st.slots.set s { x with event := true }) (hjobs : st'.jobs = st.jobs)
    (hlog : st'.log = st.log)
    (hw : ∀ t, st'.waits t = st.waits t)
    (hr : ∀ t, st'.runs t = st.runs t)
    (ht : ∀ t, st'.sets t + (if s = t then 1 else 0) = st.sets t)
    (hp : ∀ t, st'.main.pushing t = st.main.pushing t) (hworkers : ∀ w ∈ st'.workers, WorkerOk st' w)
    (hmain : MainOk st' st'.main) : Inv st' := by
  have hsl := slot_set hx hslots
  have hxs := slot_of_getElem? hx
  have hs := h.slots s
  rw [hxs] at hs
  have hts := ht s
  rw [if_pos rfl] at hts
  unfold SlotOk at hs
  refine h.move hlog hjobs ?_ ?_ ?_ hworkers hmain
  · intro t
    rw [hsl]
    by_cases hst : s = t
    · subst hst; simp [hxs]
    · simp [hst]
  · intro t
    rw [hsl]
    by_cases hst : s = t
    · subst hst; simp [hxs]
    · simp [hst]
  · intro t
    rw [hsl, hjobs, hlog, hr, hp, hw]
    by_cases hst : s = t
    · subst hst
      rw [if_pos rfl]
      unfold SlotOk
      dsimp only
      cases hj : x.job with
      | none => rw [hj] at hs; dsimp only at hs; omega
      | some j =>
        rw [hj] at hs
        dsimp only at hs ⊢
        obtain ⟨h1, h2, h3, h4, h5, h6, h7, h8, h9⟩ := hs
        have hsig := h6 (by omega)
        exact ⟨h1, h2, h3, h4, fun _ => hsig, fun _ => hsig, fun _ => .inl rfl, h8, h9⟩
    · have htt := ht t
      rw [if_neg hst] at htt ⊢
      rw [Nat.add_zero] at htt
      rw [htt]
      exact h.slots t

end Tm.Async
