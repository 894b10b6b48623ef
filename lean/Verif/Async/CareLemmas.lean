import Verif.Async.TermLemmas

/-!
# Careful runs do not fail
-/

namespace Tm.Async

/-- What holds in careful runs in which no work is refused. -/
structure CareInv (st : State) : Prop where
  pos : ∀ s, (st.slot s).ringPos < 256
  count : ∀ b ∈ st.blocks, b.count ≤ b.avail.count true
  wait : ∀ s, (st.main = .waiting s false ∨ st.main = .steal s) → ¬ (st.slot s).ringPos < 0
  free : ∀ s j, (st.main = .free s ∨ st.main = .freeSteal s) → (st.slot s).job = some j →
    (st.slot s).ringPos < 0 ∨ .started j ∈ st.log
  freeEnd : ∀ s taken, st.main = .freeEnd s taken → (st.slot s).signaled = true ∨ (st.slot s).ringPos < 0
  posted : ∀ s j, (st.slot s).job = some j → ¬ (st.slot s).ringPos < 0 →
    .dispatched j ∈ st.log ∨ ∃ q, st.main = .push q s .release
  store : ∀ q s pos, st.main = .push q s (.store pos) → pos < 256

/-- A step of another thread. -/
theorem CareInv.other {st st' : State} (h : CareInv st) (k : Keeps st st') (hb : st'.blocks = st.blocks)
    (hm : st'.main = st.main) : CareInv st' where
  pos s := by rw [k.pos]; exact h.pos s
  count := by rw [hb]; exact h.count
  wait s hs := by rw [k.pos]; rw [hm] at hs; exact h.wait s hs
  free s j hs hj := by
    rw [k.pos]
    rw [k.job] at hj
    rw [hm] at hs
    exact (h.free s j hs hj).imp id (k.log _)
  freeEnd s taken hs := by
    rw [k.pos]
    rw [hm] at hs
    exact (h.freeEnd s taken hs).imp (k.signaled s) id
  posted s j hj hp := by
    rw [k.pos] at hp
    rw [k.job] at hj
    rw [hm]
    exact (h.posted s j hj hp).imp (k.log _) id
  store := by rw [hm]; exact h.store

/-- A step of the main thread that leads to a place at which nothing more is to be known. -/
theorem CareInv.main {st st' : State} (h : CareInv st) (k : Keeps st st') (hb : st'.blocks = st.blocks)
    (hm : ∀ q s, st.main ≠ .push q s .release)
    (h1 : ∀ s, (st'.main = .waiting s false ∨ st'.main = .steal s) → ¬ (st.slot s).ringPos < 0)
    (h2 : ∀ s j, (st'.main = .free s ∨ st'.main = .freeSteal s) → (st.slot s).job = some j →
      (st.slot s).ringPos < 0 ∨ .started j ∈ st.log)
    (h3 : ∀ s taken, st'.main = .freeEnd s taken → (st'.slot s).signaled = true ∨ (st.slot s).ringPos < 0)
    (h4 : ∀ q s pos, st'.main = .push q s (.store pos) → pos < 256) : CareInv st' where
  pos s := by rw [k.pos]; exact h.pos s
  count := by rw [hb]; exact h.count
  wait s hs := by rw [k.pos]; exact h1 s hs
  free s j hs hj := by
    rw [k.pos]
    rw [k.job] at hj
    exact (h2 s j hs hj).imp id (k.log _)
  freeEnd s taken hs := by rw [k.pos]; exact h3 s taken hs
  posted s j hj hp := by
    rw [k.pos] at hp
    rw [k.job] at hj
    rcases h.posted s j hj hp with h | ⟨q, h⟩
    · exact .inl (k.log _ h)
    · exact absurd h (hm q s)
  store := h4

theorem keeps_update {st st1 st' : State} {s : Nat} {f : Slot → Slot} (h : st.update s f = .ok st1)
    (hj : ∀ x, (f x).job = x.job) (hp : ∀ x, (f x).ringPos = x.ringPos)
    (hs : ∀ x, x.signaled = true → (f x).signaled = true) (h2 : st'.slots = st1.slots)
    (h3 : ∀ e, e ∈ st.log → e ∈ st'.log) : Keeps st st' := by
  obtain ⟨x, hx, rfl⟩ := update_ok h
  have hsl := slot_set hx h2
  have hxs := slot_of_getElem? hx
  refine ⟨?_, ?_, ?_, h3⟩
  · intro t
    rw [hsl]
    by_cases hst : s = t
    · subst hst; rw [if_pos rfl, hj, hxs]
    · rw [if_neg hst]
  · intro t
    rw [hsl]
    by_cases hst : s = t
    · subst hst; rw [if_pos rfl, hp, hxs]
    · rw [if_neg hst]
  · intro t
    rw [hsl]
    by_cases hst : s = t
    · subst hst; rw [if_pos rfl, hxs]; exact hs x
    · rw [if_neg hst]; exact id

theorem execStep_keeps {st st' : State} {e : Exec} {e' : Option Exec} (h : execStep st e = .ok (st', e')) : Keeps st st' := by
  cases e with
  | start s =>
    simp only [execStep] at h
    obtain ⟨x, hx, h⟩ := bind_ok h
    cases hj : x.job with
    | none => rw [hj] at h; exact nomatch h
    | some j => rw [hj] at h; cases h; exact .of_eq rfl fun _ => List.mem_cons_of_mem _
  | running s j => cases h; exact .of_eq rfl fun _ => List.mem_cons_of_mem _
  | mark s j =>
    simp only [execStep] at h
    obtain ⟨st1, h1, h⟩ := bind_ok h
    cases h
    refine keeps_update h1 (fun _ => rfl) (fun _ => rfl) (fun _ _ => rfl) rfl ?_
    obtain ⟨x, -, rfl⟩ := update_ok h1
    exact fun _ => id
  | set s =>
    simp only [execStep] at h
    obtain ⟨st1, h1, h⟩ := bind_ok h
    cases h
    refine keeps_update h1 (fun _ => rfl) (fun _ => rfl) (fun _ h => h) rfl ?_
    obtain ⟨x, -, rfl⟩ := update_ok h1
    exact fun _ => id

theorem care_worker {st st1 : State} {w w' : WorkerPc} {ws : List WorkerPc} (h : CareInv st)
    (hs : workerStep st w = .ok (some (st1, w'))) : CareInv { st1 with workers := ws } := by
  cases w with
  | wait =>
    simp only [workerStep] at hs
    split at hs
    · exact nomatch hs
    · cases hs; exact h.other (.of_eq rfl fun _ => id) rfl rfl
  | pop p =>
    simp only [workerStep] at hs
    obtain ⟨⟨q, r⟩, h1, hs⟩ := bind_ok hs
    dsimp only at hs
    split at hs <;> (cases hs; exact h.other (.of_eq rfl fun _ => id) rfl rfl)
  | exec e =>
    simp only [workerStep] at hs
    obtain ⟨⟨st2, e2⟩, h1, hs⟩ := bind_ok hs
    obtain ⟨g1, g2, g3, g4, g5, g6, g8, -, g7, -⟩ := execStep_slots h1
    have k := execStep_keeps h1
    dsimp only at hs
    split at hs <;> (cases hs; exact h.other ⟨k.job, k.pos, k.signaled, k.log⟩ g8 g2)

theorem Keeps.trans_eq {st st1 st2 : State} (k : Keeps st st1) (h : st2.slots = st1.slots)
    (hl : ∀ e, e ∈ st1.log → e ∈ st2.log) : Keeps st st2 :=
  ⟨fun s => by rw [slot_eq h]; exact k.job s, fun s => by rw [slot_eq h]; exact k.pos s,
    fun s hs => by rw [slot_eq h]; exact k.signaled s hs, fun e he => hl e (k.log e he)⟩

theorem pushStep_care {st st' : State} {s : Nat} {p : PushStage} (h : CareInv st) (hq : QueueInv st)
    (hm : st.main = .push .work s p) (hs : pushStep st .work s p = .ok (some st')) (hno : Smooth st'.log) : CareInv st' := by
  cases p with
  | wait =>
    simp only [pushStep] at hs
    split at hs
    · obtain ⟨st1, h1, hs⟩ := bind_ok hs
      cases hs
      obtain ⟨j, hj⟩ := pushFailed_log h1
      exact absurd hj (hno j)
    · cases hs
      exact h.main (.of_eq rfl fun _ => id) rfl (by rw [hm]; nofun) nofun nofun nofun nofun
  | load =>
    simp only [pushStep] at hs
    cases hs
    exact h.main (.of_eq rfl fun _ => id) rfl (by rw [hm]; nofun) nofun nofun nofun nofun
  | cas pos =>
    simp only [pushStep] at hs
    split at hs <;>
      (cases hs; exact h.main (.of_eq rfl fun _ => id) rfl (by rw [hm]; nofun) nofun nofun nofun nofun)
  | put pos =>
    simp only [pushStep] at hs
    obtain ⟨r, hr, hs⟩ := bind_ok hs
    cases r with
    | some t =>
      dsimp only at hs
      obtain ⟨st1, h1, hs⟩ := bind_ok hs
      cases hs
      obtain ⟨j, hj⟩ := pushFailed_log h1
      exact absurd hj (hno j)
    | none =>
      cases hs
      refine h.main (.of_eq rfl fun _ => id) rfl (by rw [hm]; nofun) nofun nofun nofun ?_
      intro q t pos' he
      cases he
      have := hq.work
      rw [hm] at this
      have := this.put pos rfl
      rw [this]
      exact Nat.mod_lt _ (by decide)
  | store pos =>
    simp only [pushStep] at hs
    obtain ⟨st1, h1, hs⟩ := bind_ok hs
    cases hs
    have hpos := h.store _ _ _ hm
    obtain ⟨x, hx, rfl⟩ := update_ok h1
    have hxs := slot_of_getElem? hx
    have hsl : ∀ t, State.slot { st with
        slots := st.slots.set s { x with ringPos := (pos : Int) }, main := .push .work s .release } t = _ := slot_set hx rfl
    refine ⟨?_, h.count, nofun, nofun, nofun, ?_, nofun⟩
    · intro t
      rw [hsl]
      by_cases hst : s = t
      · rw [if_pos hst]; simp only; omega
      · rw [if_neg hst]; exact h.pos t
    · intro t j hj hp
      by_cases hst : s = t
      · subst hst; exact .inr ⟨.work, rfl⟩
      · rw [hsl, if_neg hst] at hj hp
        rcases h.posted t j hj hp with h | ⟨q, h⟩
        · exact .inl h
        · rw [hm] at h; exact nomatch h
  | release =>
    simp only [pushStep] at hs
    obtain ⟨j, hj, hs⟩ := bind_ok hs
    cases hs
    have hj := jobOf_ok hj
    refine ⟨h.pos, h.count, nofun, nofun, nofun, ?_, nofun⟩
    intro t k hk hp
    left
    rcases h.posted t k hk hp with h | ⟨q, h⟩
    · exact List.mem_cons_of_mem _ h
    · rw [hm] at h
      cases h
      replace hk : (st.slot s).job = some k := hk
      rw [hj] at hk
      cases hk
      exact List.mem_cons_self

theorem waitReturn_log {st st' : State} {s : Nat} {ok : Bool} (h : waitReturn st s ok = .ok (some st')) :
    ∀ e, e ∈ st.log → e ∈ st'.log := by
  obtain ⟨-, -, -, e, -, h⟩ := waitReturn_same h
  rw [h]
  exact fun _ => List.mem_cons_of_mem _

theorem care_main {st st' : State} (hi : Inv st) (hq : QueueInv st) (h : CareInv st)
    (hs : mainStep st false = .ok (some st')) (hno : Smooth st'.log) : CareInv st' := by
  have ret : ∀ {st1 : State} {s : Nat} {ok : Bool}, Keeps st st1 → st1.blocks = st.blocks →
      (∀ q s, st.main ≠ .push q s .release) →
      waitReturn st1 s ok = .ok (some st') → CareInv st' := by
    intro st1 s ok k hb hm hr
    obtain ⟨g1, g2, g3, -⟩ := waitReturn_same hr
    obtain ⟨-, -, -, -, -, -, g7⟩ := waitReturn_queue hr
    refine h.main (k.trans_eq g2 (waitReturn_log hr)) (g1.trans hb) hm ?_ ?_ ?_ ?_
    all_goals rw [g7]; nofun
  have hok := hi.main
  unfold mainStep at hs
  split at hs
  · exact nomatch hs
  · rename_i q s p hm
    cases q with
    | work => exact pushStep_care h hq hm hs hno
    | dispatch => exact absurd hm (hq.main s p)
  · rename_i s timed hm
    obtain ⟨x, -, hs⟩ := bind_ok hs
    split at hs
    · exact ret (.of_eq rfl fun _ => id) rfl (by rw [hm]; nofun) hs
    · split at hs
      · cases hs
        exact h.main (.of_eq rfl fun _ => id) rfl (by rw [hm]; nofun) nofun nofun nofun nofun
      · rename_i ht
        have ht : timed = false := by simpa using ht
        cases hs
        refine h.main (.of_eq rfl fun _ => id) rfl (by rw [hm]; nofun) ?_ nofun nofun nofun
        intro t ht
        rcases ht with ht | ht
        · exact nomatch ht
        · cases ht; exact h.wait s (.inl (by rw [hm, ‹timed = false›]))
  · rename_i s hm
    obtain ⟨⟨st1, ok⟩, h1, hs⟩ := bind_ok hs
    obtain ⟨-, q, rfl, -⟩ := popSlot_ok h1
    dsimp only at hs
    split at hs <;> (cases hs; exact h.main (.of_eq rfl fun _ => id) rfl (by rw [hm]; nofun) nofun nofun nofun nofun)
  · rename_i e hm
    obtain ⟨⟨st1, e1⟩, h1, hs⟩ := bind_ok hs
    obtain ⟨g1, g2, g3, g4, g5, g6, g8, -, g7, -⟩ := execStep_slots h1
    have k := execStep_keeps h1
    dsimp only at hs
    split at hs
    · cases hs
      exact h.main ⟨k.job, k.pos, k.signaled, k.log⟩ g8 (by rw [hm]; nofun) nofun nofun nofun nofun
    · exact ret k g8 (by rw [hm]; nofun) hs
    · exact nomatch hs
  · rename_i s timed hm
    obtain ⟨x, -, hs⟩ := bind_ok hs
    split at hs
    · cases hs
      exact h.main (.of_eq rfl fun _ => id) rfl (by rw [hm]; nofun) nofun nofun nofun nofun
    · split at hs
      · cases hs
        exact h.main (.of_eq rfl fun _ => id) rfl (by rw [hm]; nofun) nofun nofun nofun nofun
      · exact nomatch hs
  · rename_i s ok hm
    obtain ⟨st1, h1, hs⟩ := bind_ok hs
    have k : Keeps st st1 := by
      refine keeps_update h1 (fun _ => rfl) (fun _ => rfl) (fun _ _ => rfl) rfl ?_
      obtain ⟨x, -, rfl⟩ := update_ok h1
      exact fun _ => id
    have hb : st1.blocks = st.blocks := by obtain ⟨x, -, rfl⟩ := update_ok h1; rfl
    exact ret k hb (by rw [hm]; nofun) hs
  · rename_i s hm
    obtain ⟨x, hx, hs⟩ := bind_ok hs
    have hxs := slot_of_getElem? (rd_ok hx)
    split at hs
    · cases hs
      refine h.main (.of_eq rfl fun _ => id) rfl (by rw [hm]; nofun) nofun ?_ nofun nofun
      intro t j ht hj
      rcases ht with ht | ht
      · exact nomatch ht
      · cases ht; exact h.free s j (.inl hm) hj
    · rename_i hc
      cases hs
      refine h.main (.of_eq rfl fun _ => id) rfl (by rw [hm]; nofun) nofun nofun ?_ nofun
      intro t taken ht
      cases ht
      show (st.slot s).signaled = true ∨ (st.slot s).ringPos < 0
      rw [hxs]
      cases hsg : x.signaled with
      | true => exact .inl rfl
      | false =>
        right
        rw [hsg] at hc
        simp at hc
        exact hc
  · rename_i s hm
    obtain ⟨⟨st1, ok⟩, h1, hs⟩ := bind_ok hs
    rw [hm] at hok
    obtain ⟨hp, q, rfl, -, -, -, -, -, -, -, -, hcount⟩ := popSlot_ok h1
    dsimp only at hs
    split at hs
    · -- the work was not started
      rename_i htrue
      exfalso
      obtain ⟨j, hj⟩ := Option.isSome_iff_exists.mp hok.1
      have hsl := hi.slots s
      unfold SlotOk at hsl
      rw [hj] at hsl
      dsimp only at hsl
      obtain ⟨-, g2, g3, -⟩ := hsl
      rcases h.free s j (.inr hm) hj with hf | hf
      · exact hok.2 hf
      · have hpos := List.count_pos_iff.mpr hf
        have hring : 0 < st.work.ring.count (some s) := by
          have := hcount s
          simp only [htrue] at this
          simp at this
          omega
        have : st.work.ring.count (some s) ≤ st.waits s := by unfold State.waits; omega
        omega
    · cases hs
      exact h.main (.of_eq rfl fun _ => id) rfl (by rw [hm]; nofun) nofun nofun nofun nofun
  · rename_i s hm
    obtain ⟨x, -, hs⟩ := bind_ok hs
    split at hs
    · cases hs
      exact h.main (.of_eq rfl fun _ => id) rfl (by rw [hm]; nofun) nofun nofun nofun nofun
    · exact nomatch hs
  · rename_i s hm
    obtain ⟨st1, h1, hs⟩ := bind_ok hs
    cases hs
    have k : Keeps st st1 := by
      refine keeps_update h1 (fun _ => rfl) (fun _ => rfl) (fun _ _ => rfl) rfl ?_
      obtain ⟨x, -, rfl⟩ := update_ok h1
      exact fun _ => id
    obtain ⟨x, hx, rfl⟩ := update_ok h1
    refine h.main ⟨k.job, k.pos, k.signaled, k.log⟩ rfl (by rw [hm]; nofun) nofun nofun ?_ nofun
    intro t taken ht
    cases ht
    left
    have hlt := (List.getElem?_eq_some_iff.mp hx).1
    simp [State.slot, List.getD_eq_getElem?_getD, hlt]
  · rename_i s taken hm
    obtain ⟨x, j, hx, hj, hg, -, he⟩ := freeEnd_ok hs
    have hsl : ∀ t, st'.slot t = if s = t then _ else st.slot t := slot_set hx (by rw [he])
    have hmain : st'.main = .idle := by rw [he]
    have hlog : st'.log = .freed s j :: st.log := by rw [he]; rfl
    refine ⟨?_, ?_, ?_, ?_, ?_, ?_, ?_⟩
    · intro t
      rw [hsl]
      by_cases hst : s = t
      · rw [if_pos hst]; simp
      · rw [if_neg hst]; exact h.pos t
    · -- making a slot available does not lower the number of those
      unfold giveBack at hg
      cases hb : st.blocks[s / blockSize]? with
      | none => rw [hb] at hg; exact nomatch hg
      | some b =>
        rw [hb] at hg
        injection hg with hg
        rw [← hg]
        intro c hc
        rcases List.mem_or_eq_of_mem_set hc with hc | rfl
        · exact h.count c hc
        · have := h.count b (List.mem_of_getElem? hb)
          simp only
          by_cases hlt : s % blockSize < b.avail.length
          · have hset := count_set b.avail (s % blockSize) _ true true (List.getElem?_eq_getElem hlt)
            rw [if_pos rfl] at hset
            split at hset <;> omega
          · rw [List.set_eq_of_length_le (by omega)]; exact this
    · rw [hmain]; nofun
    · rw [hmain]; nofun
    · rw [hmain]; nofun
    · intro t k hk hp
      rw [hsl] at hk hp
      by_cases hst : s = t
      · rw [if_pos hst] at hk; exact nomatch hk
      · rw [if_neg hst] at hk hp
        rcases h.posted t k hk hp with h | ⟨q, h⟩
        · left; rw [hlog]; exact List.mem_cons_of_mem _ h
        · rw [hm] at h; exact nomatch h
    · rw [hmain]; nofun

theorem takeIn_count {b b' : Block} {k : Nat} (hb : b.avail.length = blockSize) (hc : b.count ≤ b.avail.count true)
    (h : takeIn b = .ok (k, b')) : b'.count ≤ b'.avail.count true := by
  obtain ⟨h1, h2, h3⟩ := takeIn_ok hb h
  have hset := count_set b.avail k true false true h2
  have hcnt : b'.count = b.count - 1 := by
    unfold takeIn at h
    split at h
    · exact nomatch h
    · cases h; rfl
  rw [h3, hcnt]
  simp at hset
  omega

theorem takeSlot_count {mem : Bool} {bs bs' : List Block} {base i : Nat} (hb : ∀ b ∈ bs, b.avail.length = blockSize)
    (hc : ∀ b ∈ bs, b.count ≤ b.avail.count true) (h : takeSlot mem bs base = .ok (.ok (i, bs'))) :
    ∀ b ∈ bs', b.count ≤ b.avail.count true := by
  induction bs generalizing base i bs' with
  | nil =>
    unfold takeSlot at h
    split at h
    · obtain ⟨⟨k, b⟩, hk, h⟩ := bind_ok h
      cases h
      have := takeIn_count (by simp [freshBlock]) (by simp [freshBlock]) hk
      simpa using this
    · exact nomatch h
  | cons b bs ih =>
    unfold takeSlot at h
    split at h
    · split at h
      · exact nomatch h
      · obtain ⟨r, hr, h⟩ := bind_ok h
        cases r with
        | error e => exact nomatch h
        | ok r =>
          obtain ⟨i', bs1⟩ := r
          cases h
          intro c hcm
          rcases List.mem_cons.mp hcm with rfl | hcm
          · exact hc c List.mem_cons_self
          · exact ih (fun d hd => hb d (List.mem_cons_of_mem _ hd)) (fun d hd => hc d (List.mem_cons_of_mem _ hd)) hr c hcm
    · obtain ⟨⟨k, b'⟩, hk, h⟩ := bind_ok h
      cases h
      intro c hcm
      rcases List.mem_cons.mp hcm with rfl | hcm
      · exact takeIn_count (hb b List.mem_cons_self) (hc b List.mem_cons_self) hk
      · exact hc c (List.mem_cons_of_mem _ hcm)

theorem takeIn_total {b : Block} (hc : b.count ≤ b.avail.count true) (h0 : b.count ≠ 0) : ∃ r, takeIn b = .ok r := by
  unfold takeIn
  cases hf : b.avail.findIdx? id with
  | some k => exact ⟨_, rfl⟩
  | none =>
    exfalso
    rw [List.findIdx?_eq_none_iff] at hf
    have : b.avail.count true = 0 := List.count_eq_zero.mpr fun hm => by simpa using hf true hm
    omega

theorem takeSlot_total {mem : Bool} {bs : List Block} (base : Nat) (hc : ∀ b ∈ bs, b.count ≤ b.avail.count true) :
    ∃ r, takeSlot mem bs base = .ok r := by
  induction bs generalizing base with
  | nil =>
    unfold takeSlot
    split
    · obtain ⟨⟨k, b⟩, h⟩ := takeIn_total (b := freshBlock) (by simp [freshBlock]) (by decide)
      rw [h]; exact ⟨_, rfl⟩
    · exact ⟨_, rfl⟩
  | cons b bs ih =>
    unfold takeSlot
    split
    · split
      · exact ⟨_, rfl⟩
      · obtain ⟨r, hr⟩ := ih (base + blockSize) fun c hcm => hc c (List.mem_cons_of_mem _ hcm)
        rw [hr, ok_bind]
        cases r with
        | ok r => exact ⟨_, rfl⟩
        | error e => exact ⟨_, rfl⟩
    · rename_i h0
      obtain ⟨⟨k, b'⟩, h⟩ := takeIn_total (hc b List.mem_cons_self) h0
      rw [h]; exact ⟨_, rfl⟩

theorem care_call {st st' : State} {op : Op} (hi : Inv st) (hh : HandleInv st) (h : CareInv st) (hm : st.main = .idle)
    (hc : Careful st (.call op)) (hs : callStep st op = .ok (some st')) : CareInv st' := by
  have hnr : ∀ q s, st.main ≠ .push q s .release := by rw [hm]; nofun
  cases op with
  | push deferred mem =>
    simp only [callStep] at hs
    obtain ⟨st1, h1, hs⟩ := bind_ok hs
    cases hs
    have hcount : ∀ b ∈ st'.blocks, b.count ≤ b.avail.count true := by
      have h2 := h1
      unfold pushCall at h2
      obtain ⟨r, hr, h2⟩ := bind_ok h2
      cases r with
      | error e => cases h2; exact h.count
      | ok r =>
        obtain ⟨i, blocks⟩ := r
        obtain ⟨slots, -, h2⟩ := bind_ok h2
        have := takeSlot_count hh.block.avail h.count hr
        cases deferred <;> (cases h2; exact this)
    rcases pushCall_ok hh.block h1 with ⟨e, rfl⟩ | ⟨i, hi0, hsl, e0, -, e1, e2, e3, e4, e5, e6, e7, -⟩
    · exact h.other (.of_eq rfl fun _ => List.mem_cons_of_mem _) rfl rfl
    · have hmain : st'.main = .idle ∨ st'.main = .push .work i .wait := by
        rw [e7]
        cases deferred with
        | true => exact .inl hm
        | false => exact .inr rfl
      refine ⟨?_, hcount, ?_, ?_, ?_, ?_, ?_⟩
      · intro t
        rw [hsl]
        by_cases hit : i = t
        · rw [if_pos hit]; simp
        · rw [if_neg hit]; exact h.pos t
      · rcases hmain with hm' | hm' <;> (rw [hm']; nofun)
      · rcases hmain with hm' | hm' <;> (rw [hm']; nofun)
      · rcases hmain with hm' | hm' <;> (rw [hm']; nofun)
      · intro t j hj hp
        rw [hsl] at hj hp
        by_cases hit : i = t
        · rw [if_pos hit] at hp; simp at hp
        · rw [if_neg hit] at hj hp
          rcases h.posted t j hj hp with h | ⟨q, h⟩
          · left; rw [e0]; exact List.mem_cons_of_mem _ h
          · exact absurd h (hnr q t)
      · rcases hmain with hm' | hm' <;> (rw [hm']; nofun)
  | dispatch i =>
    simp only [callStep] at hs
    split at hs
    · obtain ⟨x, -, hs⟩ := bind_ok hs
      split at hs
      · cases hs; exact h
      · cases hs
        exact h.main (.of_eq rfl fun _ => id) rfl hnr nofun nofun nofun nofun
    · exact nomatch hs
  | wait i =>
    simp only [callStep] at hs
    split at hs
    · rename_i hl
      cases hs
      refine h.main (.of_eq rfl fun _ => id) rfl hnr ?_ nofun nofun nofun
      intro s hs
      rcases hs with hs | hs
      · cases hs
        obtain ⟨j, hj⟩ := Option.isSome_iff_exists.mp (live_ok hl)
        have hd := hc.2.1 i rfl j ((hh.current i j).mpr hj)
        obtain ⟨-, hd⟩ := hi.dispatched j hd
        rcases hd with ⟨-, k, hk⟩ | ⟨t, ht, hp⟩
        · exact absurd hj ((hi.freed k j hk).2 i)
        · rw [hi.distinct i t j hj ht]; exact hp
      · exact nomatch hs
    · exact nomatch hs
  | waitFor i =>
    simp only [callStep] at hs
    split at hs
    · cases hs
      exact h.main (.of_eq rfl fun _ => id) rfl hnr nofun nofun nofun nofun
    · exact nomatch hs
  | free i =>
    simp only [callStep] at hs
    split at hs
    · obtain ⟨u, -, hs⟩ := bind_ok hs
      cases hs
      refine h.main (.of_eq rfl fun _ => id) rfl hnr nofun ?_ nofun nofun
      intro s j hs hj
      rcases hs with hs | hs
      · cases hs
        by_cases hp : (st.slot i).ringPos < 0
        · exact .inl hp
        · right
          rcases h.posted i j hj hp with hd | ⟨q, hd⟩
          · exact hc.2.2 i rfl j ((hh.current i j).mpr hj) hd
          · exact absurd hd (hnr q i)
      · exact nomatch hs
    · exact nomatch hs
  | progress i =>
    simp only [callStep] at hs
    split at hs
    · obtain ⟨x, -, hs⟩ := bind_ok hs
      obtain ⟨j, -, hs⟩ := bind_ok hs
      cases hs
      exact h.other (.of_eq rfl fun _ => List.mem_cons_of_mem _) rfl rfl
    · exact nomatch hs
  | cancel i =>
    simp only [callStep] at hs
    split at hs
    · obtain ⟨j, -, hs⟩ := bind_ok hs
      obtain ⟨st1, h1, hs⟩ := bind_ok hs
      cases hs
      have hb : st1.blocks = st.blocks ∧ st1.main = st.main ∧ st1.log = st.log := by
        obtain ⟨x, -, rfl⟩ := update_ok h1; exact ⟨rfl, rfl, rfl⟩
      refine h.other (keeps_update h1 (fun _ => rfl) (fun _ => rfl) (fun _ h => h) rfl ?_) hb.1 hb.2.1
      intro e he
      exact List.mem_cons_of_mem _ (by rw [hb.2.2]; exact he)
    · exact nomatch hs

theorem care_step {st st' : State} {a : Act} (hi : Inv st) (hh : HandleInv st) (hq : QueueInv st) (h : CareInv st)
    (hc : Careful st a) (hs : step st a = .ok (some st')) (hno : Smooth st'.log) : CareInv st' := by
  unfold step at hs
  rw [hq.running] at hs
  rw [if_neg (by simp)] at hs
  cases a with
  | call op =>
    dsimp only at hs
    split at hs
    · rename_i hm; exact care_call hi hh h hm hc hs
    · exact nomatch hs
  | main timeout =>
    cases timeout with
    | true => exact absurd rfl hc.1.1
    | false => exact care_main hi hq h hs hno
  | worker i =>
    dsimp only at hs
    split at hs
    · exact nomatch hs
    · obtain ⟨r, h1, hs⟩ := bind_ok hs
      cases r with
      | none => exact nomatch hs
      | some r => cases hs; exact care_worker h h1
  | dispatcher mem =>
    exfalso
    replace hs : dispatcherStep st mem = .ok (some st') := hs
    unfold dispatcherStep at hs
    rw [hq.dispatcher] at hs
    dsimp only at hs
    rw [hq.dispatch, hq.array] at hs
    simp [emptyQueue] at hs
  | report t v =>
    simp only [reportStep] at hs
    split at hs
    · obtain ⟨st1, h1, hs⟩ := bind_ok hs
      cases hs
      have hb : st1.blocks = st.blocks ∧ st1.main = st.main ∧ st1.log = st.log := by
        obtain ⟨x, -, rfl⟩ := update_ok h1; exact ⟨rfl, rfl, rfl⟩
      refine h.other (keeps_update h1 (fun _ => rfl) (fun _ => rfl) (fun _ h => h) rfl ?_) hb.1 hb.2.1
      intro e he
      exact List.mem_cons_of_mem _ (by rw [hb.2.2]; exact he)
    · exact nomatch hs
  | ask t =>
    simp only [askStep] at hs
    split at hs
    · obtain ⟨x, -, hs⟩ := bind_ok hs
      cases hs
      exact h.other (.of_eq rfl fun _ => List.mem_cons_of_mem _) rfl rfl
    · exact nomatch hs

theorem care_init (n : Nat) : CareInv (init n) := by
  refine ⟨?_, ?_, nofun, nofun, nofun, ?_, nofun⟩
  · intro s; rw [init_slot]; decide
  · intro b hb
    simp only [init, List.mem_singleton] at hb
    subst hb
    simp [freshBlock]
  · intro s j hj
    rw [init_slot] at hj
    exact nomatch hj

theorem Steps.mono {P Q : State → Act → Prop} (h : ∀ st a, P st a → Q st a) {st0 st : State} {acts : List Act}
    (hr : Steps P st0 acts st) : Steps Q st0 acts st := by
  induction hr with
  | start => exact .start
  | next _ hc hs ih => exact .next ih (h _ _ hc) hs

theorem Careful.calm : ∀ st a, Careful st a → Calm st a := fun _ _ h => h.1

theorem care_run {n : Nat} {acts : List Act} {st : State} (h : Run Careful n acts st) (hno : Smooth st.log) : CareInv st := by
  induction h with
  | start => exact care_init n
  | @next acts st a st' hr hc hs ih =>
    have hh := handleInv_run hr
    have hno1 : Smooth st.log := by
      rcases step_log hh.block hs with h | ⟨e, h⟩
      · rw [h] at hno; exact hno
      · rw [h] at hno; exact hno.tail
    exact care_step (inv_run (hr.mono Careful.calm)) hh (queueInv_run hr hno1) (ih hno1) hc hs hno

end Tm.Async
