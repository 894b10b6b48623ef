import Verif.Async.Multi

/-! # Lemmas about waiting for several works: what is known when a wait ends -/

namespace Tm.Async

/-- A computation gives a result with `Q`, or a fault with `F`. -/
def Post {α : Type} (x : C α) (Q : α → Prop) (F : Fault → Prop) : Prop :=
  match x with
  | .ok a => Q a
  | .error f => F f

theorem Post.bind {α β : Type} {x : C α} {g : α → C β} {Q : α → Prop} {R : β → Prop} {F : Fault → Prop} (hx : Post x Q F)
    (hg : ∀ a, Q a → Post (g a) R F) : Post (x >>= g) R F := by
  cases x with
  | ok a => exact hg a hx
  | error f => exact hx

theorem Post.imp {α : Type} {x : C α} {Q R : α → Prop} {F : Fault → Prop} (hx : Post x Q F) (h : ∀ a, Q a → R a) : Post x R F := by
  cases x with
  | ok a => exact h a hx
  | error f => exact hx

theorem Post.of_ok {α : Type} {x : C α} {Q : α → Prop} {F : Fault → Prop} (h : Post x Q F) {a : α} (e : x = .ok a) : Q a := by
  subst e
  exact h

theorem Post.of_error {α : Type} {x : C α} {Q : α → Prop} {F : Fault → Prop} (h : Post x Q F) {f : Fault} (e : x = .error f) : F f := by
  subst e
  exact h

/-- Any fault. -/
def Any' : Fault → Prop := fun _ => True

theorem rd_post {α : Type} (l : List α) (i : Nat) : Post (rd l i) (fun a => l[i]? = some a) Any' := by
  unfold rd
  cases h : l[i]? with
  | none => exact trivial
  | some a => exact rfl

theorem assert_post (b : Bool) : Post (assert b) (fun _ => b = true) Any' := by
  cases b
  · exact trivial
  · exact rfl

/-- The procedure of the slot has returned. -/
def Done (p : Pool) (s : Nat) : Prop := ∃ w, p.works[s]? = some w ∧ w.done = true

def Later (p q : Pool) : Prop := ∀ s, Done p s → Done q s

theorem Later.refl (p : Pool) : Later p p := fun _ h => h

theorem Later.trans {p q r : Pool} (h : Later p q) (h' : Later q r) : Later p r := fun s hs => h' s (h s hs)

theorem apply_done {w : Work} {c : Change} (h : w.done = true) : (w.apply c).done = true := by
  cases c <;> simp only [Work.apply] <;> split <;> simp_all

theorem apply_all {P : Work → Prop} (hP : ∀ c w, P w → P (w.apply c)) (l : List (Nat × Change)) : ∀ (ws : List Work) (j : Nat) (w : Work),
    ws[j]? = some w → P w → ∃ w', (l.foldl (fun ws x => ws.modify x.1 (·.apply x.2)) ws)[j]? = some w' ∧ P w' := by
  induction l with
  | nil => exact fun ws j w h hw => ⟨w, h, hw⟩
  | cons x l ih =>
    intro ws j w h hw
    rw [List.foldl_cons]
    by_cases hx : x.1 = j
    · refine ih _ j (w.apply x.2) ?_ (hP _ _ hw)
      rw [List.getElem?_modify, h]
      simp [hx]
    · refine ih _ j w ?_ hw
      rw [List.getElem?_modify, h]
      simp [hx]

theorem fold_length (l : List (Nat × Change)) : ∀ ws : List Work, (l.foldl (fun ws x => ws.modify x.1 (·.apply x.2)) ws).length = ws.length := by
  induction l with
  | nil => exact fun _ => rfl
  | cons x l ih => intro ws; rw [List.foldl_cons, ih, List.length_modify]

theorem tick_length (σ : Nat → Turn) (p : Pool) : (p.tick σ).works.length = p.works.length := fold_length _ _

/-- What holds of a slot and that other threads cannot change holds after they ran. -/
theorem tick_at {P : Work → Prop} (hP : ∀ c w, P w → P (w.apply c)) {σ : Nat → Turn} {p : Pool} {j : Nat} {w : Work} (h : p.works[j]? = some w) (hw : P w) :
    ∃ w', (p.tick σ).works[j]? = some w' ∧ P w' := apply_all hP _ _ j w h hw

theorem tick_all {P : Work → Prop} (hP : ∀ c w, P w → P (w.apply c)) {σ : Nat → Turn} {p : Pool} (h : ∀ w ∈ p.works, P w) : ∀ w ∈ (p.tick σ).works, P w := by
  intro w hw
  obtain ⟨j, hj⟩ := List.mem_iff_getElem?.1 hw
  have hlt : j < p.works.length := by
    rw [← tick_length σ p]
    exact (List.getElem?_eq_some_iff.1 hj).1
  obtain ⟨w', e, hw'⟩ := tick_at hP (σ := σ) (List.getElem?_eq_getElem hlt) (h _ (List.getElem_mem hlt))
  rw [hj] at e
  injection e with e
  exact e ▸ hw'

theorem tick_later (σ : Nat → Turn) (p : Pool) : Later p (p.tick σ) := by
  rintro s ⟨w, h, hw⟩
  exact tick_at (P := fun w => w.done = true) (fun _ _ => apply_done) h hw

/-- Flags and events of one work say the truth, and it is known to be done at its end. -/
def WorkHonest (w : Work) : Prop := ((w.signaled = true ∨ w.event = true) → w.done = true) ∧ (w.stage = .over → w.done = true)

/-- The pool is honest. -/
def PoolHonest (p : Pool) : Prop := ∀ w ∈ p.works, WorkHonest w

theorem apply_honest (c : Change) (w : Work) (h : WorkHonest w) : WorkHonest (w.apply c) := by
  obtain ⟨h1, h2⟩ := h
  cases c <;> simp only [Work.apply] <;> split <;> refine ⟨?_, ?_⟩ <;> simp_all

theorem set_honest {p : Pool} {i : Nat} {w : Work} (h : PoolHonest p) (hw : WorkHonest w) : PoolHonest { p with works := p.works.set i w } := by
  intro x hx
  rcases List.mem_or_eq_of_mem_set hx with hx | rfl
  · exact h x hx
  · exact hw

theorem set_later {p : Pool} {i : Nat} {w w' : Work} (h : p.works[i]? = some w) (hd : w.done = true → w'.done = true) :
    Later p { p with works := p.works.set i w' } := by
  rintro s ⟨x, hx, hdx⟩
  by_cases hs : i = s
  · subst hs
    rw [h] at hx
    injection hx with hx
    subst hx
    exact ⟨w', by rw [List.getElem?_set_self (List.getElem?_eq_some_iff.1 h).1], hd hdx⟩
  · exact ⟨x, by rw [List.getElem?_set_ne hs]; exact hx, hdx⟩

theorem tick_honest {σ : Nat → Turn} {p : Pool} (h : PoolHonest p) : PoolHonest (p.tick σ) := tick_all apply_honest h

theorem look_honest {σ : Nat → Turn} {p : Pool} (h : PoolHonest p) (i : Nat) :
    Post (p.look σ i) (fun r => PoolHonest r.2 ∧ Later p r.2 ∧ r.2.works[i]? = some r.1) Any' :=
  (rd_post _ i).bind fun _ hw => ⟨tick_honest h, tick_later σ p, hw⟩

theorem store_honest {σ : Nat → Turn} {p : Pool} (h : PoolHonest p) (i : Nat) {f : Work → Work} {P : Work → Prop} (hP : ∀ c w, P w → P (w.apply c))
    (hp : ∀ w, p.works[i]? = some w → P w) (hf : ∀ w, P w → WorkHonest w → WorkHonest (f w) ∧ (w.done = true → (f w).done = true)) :
    Post (p.store σ i f) (fun q => PoolHonest q ∧ Later p q ∧ ∀ w, q.works[i]? = some w → ∃ w', P w' ∧ w = f w') Any' := by
  refine (rd_post _ i).bind fun w hw => ?_
  have hlt : i < p.works.length := by
    rw [← tick_length σ p]
    exact (List.getElem?_eq_some_iff.1 hw).1
  obtain ⟨w', e, hw'⟩ := tick_at hP (σ := σ) (List.getElem?_eq_getElem hlt) (hp _ (List.getElem?_eq_getElem hlt))
  rw [hw] at e
  injection e with e
  subst e
  have hh := hf w hw' (tick_honest h w (List.mem_of_getElem? hw))
  refine ⟨set_honest (tick_honest h) hh.1, (tick_later σ p).trans (set_later hw hh.2), ?_⟩
  intro x hx
  dsimp only at hx
  rw [List.getElem?_set_self (List.getElem?_eq_some_iff.1 hw).1] at hx
  injection hx with hx
  exact ⟨w, hw', hx.symm⟩

theorem execute_honest {σ : Nat → Turn} {p : Pool} (h : PoolHonest p) (i : Nat) :
    Post (p.execute σ i) (fun q => PoolHonest q ∧ Later p q ∧ Done q i) Any' := by
  unfold Pool.execute Pool.store
  refine (rd_post _ i).bind fun w hw => ?_
  refine ⟨set_honest (tick_honest h) ⟨fun _ => rfl, fun _ => rfl⟩, (tick_later σ p).trans (set_later hw fun _ => rfl), ?_⟩
  exact ⟨_, by rw [List.getElem?_set_self (List.getElem?_eq_some_iff.1 hw).1], rfl⟩

/-- Marks a slot that is done. -/
theorem mark_honest {σ : Nat → Turn} {p : Pool} (h : PoolHonest p) (i : Nat) (hd : Done p i) :
    Post (p.store σ i fun w => { w with signaled := true }) (fun q => PoolHonest q ∧ Later p q) Any' := by
  refine (store_honest h i (P := fun w => w.done = true) (fun _ _ => apply_done) ?_ ?_).imp fun q hq => ⟨hq.1, hq.2.1⟩
  · intro w hw
    obtain ⟨w', e, hw'⟩ := hd
    rw [hw] at e
    injection e with e
    exact e ▸ hw'
  · exact fun w hw hh => ⟨⟨fun _ => hw, fun _ => hw⟩, fun h => h⟩

theorem pending_honest {σ : Nat → Turn} {p : Pool} (h : PoolHonest p) (i : Nat) :
    Post (p.store σ i fun w => { w with pending := true }) (fun q => PoolHonest q ∧ Later p q) Any' :=
  (store_honest h i (f := fun w => { w with pending := true }) (P := fun _ => True) (fun _ _ h => h) (fun _ _ => trivial)
    fun _ _ hh => ⟨hh, fun h => h⟩).imp fun _ hq => ⟨hq.1, hq.2.1⟩

theorem dispatch_honest {σ : Nat → Turn} {p : Pool} (h : PoolHonest p) (i : Nat) :
    Post (p.dispatch σ i) (fun r => PoolHonest r.2 ∧ Later p r.2) Any' := by
  refine (rd_post _ i).bind fun w hw => (assert_post _).bind fun _ _ => ?_
  have hh := tick_honest (σ := σ) h w (List.mem_of_getElem? hw)
  split
  · exact ⟨set_honest (tick_honest h) ⟨hh.1, fun e => by cases e⟩, (tick_later σ p).trans (set_later hw fun h => h)⟩
  · exact ⟨set_honest (tick_honest h) ⟨hh.1, fun e => by cases e⟩, (tick_later σ p).trans (set_later hw fun h => h)⟩
  · exact ⟨tick_honest h, tick_later σ p⟩

theorem pop_honest {σ : Nat → Turn} {p : Pool} (h : PoolHonest p) (i : Nat) :
    Post (p.pop σ i) (fun r => PoolHonest r.2 ∧ Later p r.2) Any' := by
  refine (rd_post _ i).bind fun w hw => ?_
  have hh := tick_honest (σ := σ) h w (List.mem_of_getElem? hw)
  split
  · exact trivial
  · split
    · exact ⟨set_honest (tick_honest h) ⟨hh.1, fun e => by cases e⟩, (tick_later σ p).trans (set_later hw fun h => h)⟩
    · exact ⟨tick_honest h, tick_later σ p⟩

/-- What is known when a wait for events is over. -/
def Woken (all : Bool) (events : List Nat) (r : (WaitErr × Nat) × Pool) : Prop :=
  r.1.1 = .ok → (all = true → ∀ s ∈ events, Done r.2 s) ∧ (all = false → ∃ s, events[r.1.2]? = some s ∧ Done r.2 s)

theorem event_done {p : Pool} (h : PoolHonest p) {s : Nat} (e : ((p.works[s]?).map (·.event)).getD false = true) : Done p s := by
  cases hw : p.works[s]? with
  | none => rw [hw] at e; simp at e
  | some w =>
    rw [hw] at e
    exact ⟨w, hw, (h w (List.mem_of_getElem? hw)).1 (Or.inr (by simpa using e))⟩

theorem wakes_done {p : Pool} (h : PoolHonest p) {all : Bool} {events : List Nat} {k : Nat} (e : wakes p.works all events = some k) :
    Woken all events ((.ok, k), p) := by
  intro _
  unfold wakes at e
  dsimp only at e
  constructor
  · intro ha
    rw [if_pos ha] at e
    split at e
    · rename_i hall
      intro s hs
      exact event_done h (List.all_eq_true.1 hall s hs)
    · cases e
  · intro ha
    rw [if_neg (by rw [ha]; decide)] at e
    obtain ⟨h1, h2, _⟩ := List.findIdx?_eq_some_iff_getElem.1 e
    exact ⟨events[k], List.getElem?_eq_getElem h1, event_done h h2⟩

theorem waitEvents_honest {σ : Nat → Turn} {all : Bool} {events : List Nat} {limit : Limit} : ∀ (fuel : Nat) {p : Pool}, PoolHonest p →
    Post (p.waitEvents σ all events limit fuel) (fun r => PoolHonest r.2 ∧ Later p r.2 ∧ Woken all events r) Any'
  | 0, _, _ => trivial
  | fuel + 1, p, h => by
    rw [Pool.waitEvents]
    split
    · exact ⟨tick_honest h, tick_later σ p, fun e => by cases e⟩
    · cases hw : wakes (p.tick σ).works all events with
      | some k => exact ⟨tick_honest h, tick_later σ p, wakes_done (tick_honest h) hw⟩
      | none =>
        dsimp only
        split
        · exact ⟨tick_honest h, tick_later σ p, fun e => by cases e⟩
        · exact (waitEvents_honest fuel (tick_honest h)).imp fun r hr => ⟨hr.1, (tick_later σ p).trans hr.2.1, hr.2.2⟩

/-- The slot of a handle. -/
def slotOf (h : Int) : Nat := (handleIndex h).toNat

/-- The events of a buffer are those of the handles. -/
def BufOk (mem : List Int) (off : Nat) (buf : List (Nat × Nat)) : Prop :=
  ∀ x ∈ buf, ∃ h, mem[off + x.2]? = some h ∧ handleValid h = true ∧ slotOf h = x.1

/-- What is known of what the first loop found. -/
def FoundOk (mem : List Int) (off : Nat) (all : Bool) (limit : Limit) (n i : Nat) (buf : List (Nat × Nat)) (r : Found × Pool) : Prop :=
  match r.1 with
  | .result x => (all = true ∧ x.ec = .etimedout) ∨ (all = false ∧ ∃ h, mem[off + x.index]? = some h ∧ handleValid h = true ∧ Done r.2 (slotOf h))
  | .overflow => maxWait < buf.length + n ∨ limit = .some
  | .events buf' _ _ => BufOk mem off buf' ∧ (∀ x ∈ buf, x ∈ buf') ∧
      (all = true → ∀ k < n, ∀ h, mem[off + (i + k)]? = some h → handleValid h = true → Done r.2 (slotOf h) ∨ ∃ x ∈ buf', x.1 = slotOf h)

theorem collect_honest {σ : Nat → Turn} {mem : List Int} {off : Nat} {all : Bool} {limit : Limit} : ∀ (n i : Nat) (buf : List (Nat × Nat)) (und : Option Nat)
    (fin : Bool) (p : Pool), PoolHonest p → BufOk mem off buf →
    Post (collect σ mem off all limit n i buf und fin p) (fun r => PoolHonest r.2 ∧ Later p r.2 ∧ FoundOk mem off all limit n i buf r) Any'
  | 0, i, buf, und, fin, p, h, hb => ⟨h, Later.refl p, hb, fun _ hx => hx, fun _ k hk => by omega⟩
  | n + 1, i, buf, und, fin, p, h, hb => by
    rw [collect]
    refine (rd_post _ _).bind fun hd hm => ?_
    -- the rest of the loop, when something is known of this handle
    have go : ∀ (buf2 : List (Nat × Nat)) (und2 : Option Nat) (fin2 : Bool) (q : Pool), PoolHonest q → Later p q → BufOk mem off buf2 → (∀ x ∈ buf, x ∈ buf2) →
        buf2.length ≤ buf.length + 1 →
        (all = true → handleValid hd = true → Done q (slotOf hd) ∨ ∃ x ∈ buf2, x.1 = slotOf hd) →
        Post (collect σ mem off all limit n (i + 1) buf2 und2 fin2 q) (fun r => PoolHonest r.2 ∧ Later p r.2 ∧ FoundOk mem off all limit (n + 1) i buf r) Any' := by
      intro buf2 und2 fin2 q hq hl hb2 hsub hlen hk
      refine (collect_honest n (i + 1) buf2 und2 fin2 q hq hb2).imp fun r hr => ⟨hr.1, hl.trans hr.2.1, ?_⟩
      have h3 := hr.2.2
      unfold FoundOk at h3 ⊢
      split
      · rename_i x hx
        rw [hx] at h3
        exact h3
      · rename_i hx
        rw [hx] at h3
        exact h3.imp (fun h => by omega) fun h => h
      · rename_i buf' u' f' hx
        rw [hx] at h3
        obtain ⟨g1, g2, g3⟩ := h3
        refine ⟨g1, fun x hx => g2 x (hsub x hx), ?_⟩
        intro ha k hk2 h0 hm0 hv0
        cases k with
        | zero =>
          rw [Nat.add_zero, hm] at hm0
          injection hm0 with hm0
          subst hm0
          rcases hk ha hv0 with hd | ⟨x, hx, e⟩
          · exact Or.inl (hr.2.1 _ hd)
          · exact Or.inr ⟨x, g2 x hx, e⟩
        | succ k => exact g3 ha k (by omega) h0 (by rw [show off + (i + 1 + k) = off + (i + (k + 1)) by omega]; exact hm0) hv0
    split
    · rename_i hv
      exact go buf und fin p h (Later.refl p) hb (fun _ hx => hx) (by omega) fun _ hv' => by rw [hv] at hv'; cases hv'
    · rename_i hv
      have hv : handleValid hd = true := by simpa using hv
      dsimp only
      refine (look_honest h _).bind fun x hx => ?_
      split
      · rename_i hsig
        have hdone : Done x.2 (slotOf hd) := ⟨x.1, hx.2.2, (hx.1 x.1 (List.mem_of_getElem? hx.2.2)).1 (Or.inl hsig)⟩
        split
        · exact go buf und true x.2 hx.1 hx.2.1 hb (fun _ hx => hx) (by omega) fun _ _ => Or.inl hdone
        · rename_i ha
          exact ⟨hx.1, hx.2.1, Or.inr ⟨by simpa using ha, hd, hm, hv, hdone⟩⟩
      · refine (look_honest hx.1 _).bind fun y hy => ?_
        have hd2 : Post (if y.1.placed = false then y.2.dispatch σ (handleIndex hd).toNat else .ok (true, y.2)) (fun r => PoolHonest r.2 ∧ Later p r.2) Any' := by
          split
          · exact (dispatch_honest hy.1 _).imp fun r hr => ⟨hr.1, (hx.2.1.trans hy.2.1).trans hr.2⟩
          · exact ⟨hy.1, hx.2.1.trans hy.2.1⟩
        refine hd2.bind fun d hd2 => ?_
        split
        · split
          · rename_i hful
            refine ⟨hd2.1, hd2.2, Or.inl ?_⟩
            omega
          · refine go _ und fin d.2 hd2.1 hd2.2 ?_ (fun x hx => List.mem_append_left _ hx) (by simp) fun _ _ => Or.inr ⟨((handleIndex hd).toNat, i), by simp, rfl⟩
            intro x hx
            rcases List.mem_append.1 hx with hx | hx
            · exact hb x hx
            · rw [List.mem_singleton] at hx
              subst hx
              exact ⟨hd, hm, hv, rfl⟩
        · split
          · rename_i ha
            exact go buf _ fin d.2 hd2.1 hd2.2 hb (fun _ hx => hx) (by omega) fun ha' => by rw [ha] at ha'; cases ha'
          · rename_i ha
            have ha : all = true := by simpa using ha
            split
            · refine (execute_honest hd2.1 _).bind fun q hq => ?_
              exact go buf und true q hq.1 (hd2.2.trans hq.2.1) hb (fun _ hx => hx) (by omega) fun _ _ => Or.inl hq.2.2
            · exact ⟨hd2.1, hd2.2, Or.inl ⟨ha, rfl⟩⟩
            · exact ⟨hd2.1, hd2.2, Or.inr (by first | rfl | assumption)⟩

theorem markAll_honest {σ : Nat → Turn} {mem : List Int} {off : Nat} {events : List (Nat × Nat)} : ∀ (buf : List (Nat × Nat)) (p : Pool), PoolHonest p →
    BufOk mem off buf → (∀ x ∈ buf, Done p x.1) → Post (markAll σ mem off events buf p) (fun q => PoolHonest q ∧ Later p q) Any'
  | [], p, h, _, _ => ⟨h, Later.refl p⟩
  | x :: buf, p, h, hb, hd => by
    rw [markAll]
    refine (rd_post _ _).bind fun hh hm => ?_
    obtain ⟨h0, e, hv, hs⟩ := hb x List.mem_cons_self
    rw [hm] at e
    injection e with e
    subst e
    rw [if_neg (by rw [hv]; decide)]
    dsimp only
    have hdx : Done p (handleIndex hh).toNat := by
      have := hd x List.mem_cons_self
      rw [← hs] at this
      exact this
    refine (mark_honest h _ hdx).bind fun q hq => ?_
    split
    · refine (assert_post _).bind fun _ _ => ?_
      exact (markAll_honest buf q hq.1 (fun y hy => hb y (List.mem_cons_of_mem _ hy)) fun y hy => hq.2 _ (hd y (List.mem_cons_of_mem _ hy))).imp
        fun r hr => ⟨hr.1, hq.2.trans hr.2⟩
    · split <;> exact trivial

/-- What is known when a chunk was waited for. -/
def ChunkOk (mem : List Int) (off n : Nat) (all : Bool) (limit : Limit) (r : (Kind × WaitResult) × Pool) : Prop :=
  r.1.2.ec = .ok →
    (r.1.1 = .processed ∧ all = true ∧ (∀ k < n, ∀ h, mem[off + k]? = some h → handleValid h = true → Done r.2 (slotOf h))) ∨
    (r.1.1 = .processed ∧ all = false ∧ ∃ h, mem[off + r.1.2.index]? = some h ∧ handleValid h = true ∧ Done r.2 (slotOf h)) ∨
    (r.1.1 = .overflow ∧ (maxWait < n ∨ limit = .some))

theorem waitFound_honest {σ : Nat → Turn} {fuel : Nat} {mem : List Int} {off n : Nat} {all : Bool} {limit : Limit} {buf : List (Nat × Nat)} {und : Option Nat}
    {p : Pool} (h : PoolHonest p) (hb : BufOk mem off buf)
    (hall : all = true → ∀ k < n, ∀ h, mem[off + k]? = some h → handleValid h = true → Done p (slotOf h) ∨ ∃ x ∈ buf, x.1 = slotOf h) :
    Post (waitFound σ fuel mem off all limit buf und p) (fun r => PoolHonest r.2 ∧ Later p r.2 ∧ ChunkOk mem off n all limit r) Any' := by
  rw [waitFound]
  refine (waitEvents_honest fuel h).bind fun x hx => ?_
  split
  · rename_i hne
    exact ⟨hx.1, hx.2.1, fun e => absurd e hne⟩
  · rename_i hok
    have hok : x.1.1 = .ok := by simpa using hok
    have hwk := hx.2.2 hok
    refine (rd_post _ _).bind fun e he => ?_
    have hpost : Post (if all = true then markAll σ mem off buf buf x.2
        else do
          let h ← rd mem (off + e.2)
          assert (handleValid h)
          let p ← x.2.store σ (handleIndex h).toNat fun w => { w with signaled := true }
          assert (decide ((handleIndex h).toNat = e.1))
          .ok p) (fun q => PoolHonest q ∧ Later x.2 q ∧
            ((all = true ∧ (∀ k < n, ∀ h, mem[off + k]? = some h → handleValid h = true → Done q (slotOf h))) ∨
              (all = false ∧ ∃ h, mem[off + e.2]? = some h ∧ handleValid h = true ∧ Done q (slotOf h)))) Any' := by
      split
      · rename_i ha
        refine (markAll_honest buf x.2 hx.1 hb fun y hy => hwk.1 ha y.1 (List.mem_map_of_mem hy)).imp fun q hq => ⟨hq.1, hq.2, Or.inl ⟨ha, ?_⟩⟩
        intro k hk h0 hm hv
        rcases hall ha k hk h0 hm hv with hd | ⟨y, hy, e⟩
        · exact hq.2 _ (hx.2.1 _ hd)
        · rw [← e]
          exact hq.2 _ (hwk.1 ha y.1 (List.mem_map_of_mem hy))
      · rename_i ha
        have ha : all = false := by simpa using ha
        obtain ⟨s, hs, hds⟩ := hwk.2 ha
        rw [List.getElem?_map, he] at hs
        injection hs with hs
        obtain ⟨h0, hm, hv, hs0⟩ := hb e (List.mem_of_getElem? he)
        refine (rd_post _ _).bind fun h1 hm1 => ?_
        rw [hm] at hm1
        injection hm1 with hm1
        subst hm1
        refine (assert_post _).bind fun _ _ => ?_
        have hd1 : Done x.2 (handleIndex h0).toNat := by
          have := hds
          rw [← hs] at this
          dsimp only at this
          rw [← hs0] at this
          exact this
        refine (mark_honest hx.1 _ hd1).bind fun q hq => (assert_post _).bind fun _ _ => ?_
        exact ⟨hq.1, hq.2, Or.inr ⟨ha, h0, hm, hv, hq.2 _ hd1⟩⟩
    refine hpost.bind fun q hq => ?_
    split
    · refine (dispatch_honest hq.1 _).bind fun d hd => ?_
      refine ⟨hd.1, (hx.2.1.trans hq.2.1).trans hd.2, fun _ => ?_⟩
      rcases hq.2.2 with ⟨ha, hk⟩ | ⟨ha, h0, hm, hv, hdn⟩
      · exact Or.inl ⟨rfl, ha, fun k hk1 h1 hm1 hv1 => hd.2 _ (hk k hk1 h1 hm1 hv1)⟩
      · exact Or.inr (Or.inl ⟨rfl, ha, h0, hm, hv, hd.2 _ hdn⟩)
    · refine ⟨hq.1, hx.2.1.trans hq.2.1, fun _ => ?_⟩
      rcases hq.2.2 with ⟨ha, hk⟩ | ⟨ha, h0, hm, hv, hdn⟩
      · exact Or.inl ⟨rfl, ha, hk⟩
      · exact Or.inr (Or.inl ⟨rfl, ha, h0, hm, hv, hdn⟩)

theorem waitChunk_honest {σ : Nat → Turn} {fuel : Nat} {mem : List Int} {off n : Nat} {all : Bool} {limit : Limit} {p : Pool} (h : PoolHonest p) :
    Post (waitChunk σ fuel mem off n all limit p) (fun r => PoolHonest r.2 ∧ Later p r.2 ∧ ChunkOk mem off n all limit r) Any' := by
  rw [waitChunk]
  refine (collect_honest n 0 [] none false p h (by intro x hx; cases hx)).bind fun x hx => ?_
  obtain ⟨h1, h2, h3⟩ := hx
  unfold FoundOk at h3
  split
  · rename_i r hr
    rw [hr] at h3
    refine ⟨h1, h2, fun e => ?_⟩
    rcases h3 with ⟨_, ht⟩ | ⟨ha, hd⟩
    · dsimp only at e
      rw [ht] at e
      cases e
    · exact Or.inr (Or.inl ⟨rfl, ha, hd⟩)
  · rename_i hr
    rw [hr] at h3
    refine ⟨h1, h2, fun _ => Or.inr (Or.inr ⟨rfl, ?_⟩)⟩
    simpa using h3
  · rename_i buf und fin hr
    rw [hr] at h3
    obtain ⟨g1, _, g3⟩ := h3
    simp only [Nat.zero_add] at g3
    split
    · rename_i hbuf
      split
      · rename_i haf
        have ha : all = true := by
          cases all
          · cases haf
          · rfl
        refine ⟨h1, h2, fun _ => Or.inl ⟨rfl, ha, ?_⟩⟩
        intro k hk h0 hm hv
        rcases g3 ha k hk h0 hm hv with hd | ⟨y, hy, _⟩
        · exact hd
        · rw [hbuf] at hy
          cases hy
      · exact ⟨h1, h2, fun e => by cases e⟩
    · exact (waitFound_honest h1 g1 g3).imp fun r hr => ⟨hr.1, h2.trans hr.2.1, hr.2.2⟩

/-! ### Waiting for all without a limit -/

theorem gather_honest {σ : Nat → Turn} {mem : List Int} : ∀ (n i : Nat) (p : Pool), PoolHonest p →
    Post (gather σ mem n i p) (fun r => PoolHonest r.2 ∧ Later p r.2 ∧
      ∀ k < n, ∀ h, mem[i + k]? = some h → handleValid h = true → Done r.2 (slotOf h) ∨ slotOf h ∈ r.1) Any'
  | 0, _, p, h => ⟨h, Later.refl p, fun k hk => by omega⟩
  | n + 1, i, p, h => by
    rw [gather]
    refine (rd_post _ _).bind fun hd hm => ?_
    have go : ∀ q, PoolHonest q → Later p q → (handleValid hd = true → Done q (slotOf hd)) →
        Post (gather σ mem n (i + 1) q) (fun r => PoolHonest r.2 ∧ Later p r.2 ∧
          ∀ k < n + 1, ∀ h, mem[i + k]? = some h → handleValid h = true → Done r.2 (slotOf h) ∨ slotOf h ∈ r.1) Any' := by
      intro q hq hl hdn
      refine (gather_honest n (i + 1) q hq).imp fun r hr => ⟨hr.1, hl.trans hr.2.1, ?_⟩
      intro k hk h0 hm0 hv0
      cases k with
      | zero =>
        rw [Nat.add_zero, hm] at hm0
        injection hm0 with hm0
        subst hm0
        exact Or.inl (hr.2.1 _ (hdn hv0))
      | succ k => exact hr.2.2 k (by omega) h0 (by rw [show i + 1 + k = i + (k + 1) by omega]; exact hm0) hv0
    split
    · rename_i hv
      exact go p h (Later.refl p) fun hv' => by rw [hv] at hv'; cases hv'
    · dsimp only
      refine (look_honest h _).bind fun x hx => ?_
      split
      · rename_i hsig
        exact go x.2 hx.1 hx.2.1 fun _ => ⟨x.1, hx.2.2, (hx.1 x.1 (List.mem_of_getElem? hx.2.2)).1 (Or.inl hsig)⟩
      · refine (look_honest hx.1 _).bind fun y hy => ?_
        have hd2 : Post (if y.1.placed = false then y.2.dispatch σ (handleIndex hd).toNat else .ok (true, y.2)) (fun r => PoolHonest r.2 ∧ Later p r.2) Any' := by
          split
          · exact (dispatch_honest hy.1 _).imp fun r hr => ⟨hr.1, (hx.2.1.trans hy.2.1).trans hr.2⟩
          · exact ⟨hy.1, hx.2.1.trans hy.2.1⟩
        refine hd2.bind fun d hd2 => (gather_honest n (i + 1) d.2 hd2.1).bind fun r hr => ⟨hr.1, hd2.2.trans hr.2.1, ?_⟩
        intro k hk h0 hm0 hv0
        cases k with
        | zero =>
          rw [Nat.add_zero, hm] at hm0
          injection hm0 with hm0
          subst hm0
          exact Or.inr List.mem_cons_self
        | succ k =>
          exact (hr.2.2 k (by omega) h0 (by rw [show i + 1 + k = i + (k + 1) by omega]; exact hm0) hv0).imp id fun h => List.mem_cons_of_mem _ h

theorem work_honest {σ : Nat → Turn} : ∀ (slots : List Nat) (did : Bool) (p : Pool), PoolHonest p →
    Post (work σ slots did p) (fun r => PoolHonest r.2 ∧ Later p r.2 ∧ ∀ s ∈ slots, Done r.2 s ∨ s ∈ r.1.1) Any'
  | [], _, p, h => ⟨h, Later.refl p, fun s hs => by cases hs⟩
  | s :: slots, did, p, h => by
    rw [work]
    have go : ∀ did q, PoolHonest q → Later p q → Done q s →
        Post (work σ slots did q) (fun r => PoolHonest r.2 ∧ Later p r.2 ∧ ∀ t ∈ s :: slots, Done r.2 t ∨ t ∈ r.1.1) Any' := by
      intro did q hq hl hdn
      refine (work_honest slots did q hq).imp fun r hr => ⟨hr.1, hl.trans hr.2.1, ?_⟩
      intro t ht
      rcases List.mem_cons.1 ht with rfl | ht
      · exact Or.inl (hr.2.1 _ hdn)
      · exact hr.2.2 t ht
    have wait : ∀ did q, PoolHonest q → Later p q →
        Post (do
          let r ← work σ slots did q
          .ok ((s :: r.1.1, r.1.2), r.2) : C _) (fun r => PoolHonest r.2 ∧ Later p r.2 ∧ ∀ t ∈ s :: slots, Done r.2 t ∨ t ∈ r.1.1) Any' := by
      intro did q hq hl
      refine (work_honest slots did q hq).bind fun r hr => ⟨hr.1, hl.trans hr.2.1, ?_⟩
      intro t ht
      rcases List.mem_cons.1 ht with rfl | ht
      · exact Or.inr List.mem_cons_self
      · exact (hr.2.2 t ht).imp id fun h => List.mem_cons_of_mem _ h
    refine (look_honest h _).bind fun x hx => ?_
    have hd : Post (if x.1.placed = false then x.2.dispatch σ s else .ok (true, x.2)) (fun r => PoolHonest r.2 ∧ Later p r.2) Any' := by
      split
      · exact (dispatch_honest hx.1 _).imp fun r hr => ⟨hr.1, hx.2.1.trans hr.2⟩
      · exact ⟨hx.1, hx.2.1⟩
    refine hd.bind fun d hd => ?_
    split
    · exact (execute_honest hd.1 _).bind fun q hq => go true q hq.1 (hd.2.trans hq.2.1) hq.2.2
    · refine (look_honest hd.1 _).bind fun y hy => ?_
      split
      · exact wait did y.2 hy.1 (hd.2.trans hy.2.1)
      · refine (pop_honest hy.1 _).bind fun t ht => ?_
        split
        · exact (execute_honest ht.1 _).bind fun q hq => go true q hq.1 (((hd.2.trans hy.2.1).trans ht.2).trans hq.2.1) hq.2.2
        · exact (pending_honest ht.1 _).bind fun q hq => wait did q hq.1 (((hd.2.trans hy.2.1).trans ht.2).trans hq.2)

theorem markSlots_honest {σ : Nat → Turn} : ∀ (slots : List Nat) (p : Pool), PoolHonest p → (∀ s ∈ slots, Done p s) →
    Post (markSlots σ slots p) (fun q => PoolHonest q ∧ Later p q) Any'
  | [], p, h, _ => ⟨h, Later.refl p⟩
  | s :: slots, p, h, hd => by
    rw [markSlots]
    refine (mark_honest h s (hd s List.mem_cons_self)).bind fun q hq => ?_
    exact (markSlots_honest slots q hq.1 fun t ht => hq.2 _ (hd t (List.mem_cons_of_mem _ ht))).imp fun r hr => ⟨hr.1, hq.2.trans hr.2⟩

/-- What is known after a pass from the handle `i` on. -/
def PassOk (mem : List Int) (count i : Nat) (todo : Bool) (r : (Option WaitErr × Bool) × Pool) : Prop :=
  r.1.1 ≠ some .ok ∧ (r.1.1 = none → r.1.2 = false → todo = false ∧
    ∀ j, i ≤ j → j < count → ∀ h, mem[j]? = some h → handleValid h = true → Done r.2 (slotOf h))

theorem pass_honest {σ : Nat → Turn} {fuel : Nat} {mem : List Int} {count : Nat} {first : Bool} : ∀ (n i : Nat) (todo did : Bool) (p : Pool), PoolHonest p →
    Post (pass σ fuel mem count first n i todo did p) (fun r => PoolHonest r.2 ∧ Later p r.2 ∧ PassOk mem count i todo r) Any'
  | 0, _, _, _, _, _ => trivial
  | n + 1, i, todo, did, p, h => by
    rw [pass]
    split
    · dsimp only
      refine (gather_honest _ i p h).bind fun g hg => (work_honest g.1 did g.2 hg.1).bind fun r hr => ?_
      have hcov : r.1.1 = [] → ∀ j, i ≤ j → j < i + maxWait → j < count → ∀ h, mem[j]? = some h → handleValid h = true → Done r.2 (slotOf h) := by
        intro he j h1 h2 h3 h0 hm hv
        rcases hg.2.2 (j - i) (by split <;> omega) h0 (by rw [show i + (j - i) = j by omega]; exact hm) hv with hd | hs
        · exact hr.2.1 _ hd
        · rcases hr.2.2 _ hs with hd | hs
          · exact hd
          · rw [he] at hs
            cases hs
      split
      · rename_i he
        refine (pass_honest n (i + maxWait) todo r.1.2 r.2 hr.1).imp fun s hs => ⟨hs.1, (hg.2.1.trans hr.2.1).trans hs.2.1, hs.2.2.1, ?_⟩
        intro e1 e2
        obtain ⟨g1, g2⟩ := hs.2.2.2 e1 e2
        refine ⟨g1, fun j h1 h2 h0 hm hv => ?_⟩
        by_cases hj : j < i + maxWait
        · exact hs.2.1 _ (hcov he j h1 hj h2 h0 hm hv)
        · exact g2 j (by omega) h2 h0 hm hv
      · refine (waitEvents_honest fuel hr.1).bind fun e he => ?_
        split
        · rename_i hok
          refine (markSlots_honest r.1.1 e.2 he.1 ((he.2.2 hok).1 rfl)).bind fun q hq => ?_
          refine (pass_honest n (i + maxWait) true r.1.2 q hq.1).imp fun s hs =>
            ⟨hs.1, (((hg.2.1.trans hr.2.1).trans he.2.1).trans hq.2).trans hs.2.1, hs.2.2.1, fun e1 e2 => ?_⟩
          have := (hs.2.2.2 e1 e2).1
          cases this
        · rename_i hok
          split
          · refine ⟨he.1, (hg.2.1.trans hr.2.1).trans he.2.1, ?_, fun e1 => by cases e1⟩
            intro e1
            injection e1 with e1
            exact hok e1
          · refine (pass_honest n (i + maxWait) true r.1.2 e.2 he.1).imp fun s hs =>
              ⟨hs.1, ((hg.2.1.trans hr.2.1).trans he.2.1).trans hs.2.1, hs.2.2.1, fun e1 e2 => ?_⟩
            have := (hs.2.2.2 e1 e2).1
            cases this
    · refine ⟨h, Later.refl p, ?_⟩
      constructor
      · simp
      · exact fun _ e => ⟨e, fun j h1 h2 => by omega⟩

theorem waitAllInfinite_honest {σ : Nat → Turn} {fuel : Nat} {mem : List Int} {count : Nat} : ∀ (n : Nat) (first : Bool) (p : Pool), PoolHonest p →
    Post (waitAllInfinite σ fuel mem count n first p) (fun r => PoolHonest r.2 ∧ Later p r.2 ∧
      (r.1.ec = .ok → ∀ j, j < count → ∀ h, mem[j]? = some h → handleValid h = true → Done r.2 (slotOf h))) Any'
  | 0, _, _, _ => trivial
  | n + 1, first, p, h => by
    rw [waitAllInfinite]
    refine (pass_honest _ 0 false false p h).bind fun x hx => ?_
    split
    · rename_i ec hec
      refine ⟨hx.1, hx.2.1, fun e => ?_⟩
      dsimp only at e
      subst e
      exact absurd hec hx.2.2.1
    · rename_i hec
      split
      · exact (waitAllInfinite_honest n false x.2 hx.1).imp fun r hr => ⟨hr.1, hx.2.1.trans hr.2.1, hr.2.2⟩
      · rename_i ht
        refine ⟨hx.1, hx.2.1, fun _ j hj => ?_⟩
        exact (hx.2.2.2 hec (by simpa using ht)).2 j (by omega) hj

/-! ### Polling -/

theorem pollAll_honest {σ : Nat → Turn} {fuel : Nat} {mem : List Int} {count : Nat} (hc : count ≤ maxWait) : ∀ (n i : Nat) (res : WaitResult) (p : Pool),
    PoolHonest p → (i = 0 ∨ (i = maxWait ∧ ∀ j, j < count → ∀ h, mem[j]? = some h → handleValid h = true → Done p (slotOf h))) → (0 < count) →
    Post (pollAll σ fuel mem count n i res p) (fun r => PoolHonest r.2 ∧ Later p r.2 ∧
      (r.1.ec = .ok → ∀ j, j < count → ∀ h, mem[j]? = some h → handleValid h = true → Done r.2 (slotOf h))) Any'
  | 0, _, _, _, _, _, _ => trivial
  | n + 1, i, res, p, h, hi, h0 => by
    rw [pollAll]
    split
    · rename_i hlt
      have hi : i = 0 := by
        rcases hi with hi | ⟨hi, _⟩
        · exact hi
        · omega
      subst hi
      dsimp only
      rw [if_neg (by omega)]
      refine (waitChunk_honest h).bind fun x hx => ?_
      split
      · rename_i hne
        exact ⟨hx.1, hx.2.1, fun e => absurd e hne⟩
      · rename_i hok
        have hok : x.1.2.ec = .ok := by simpa using hok
        have hall : ∀ j, j < count → ∀ h, mem[j]? = some h → handleValid h = true → Done x.2 (slotOf h) := by
          rcases hx.2.2 hok with ⟨_, _, g⟩ | ⟨_, g, _⟩ | ⟨_, g⟩
          · intro j hj h1 hm hv
            exact g j (by omega) h1 (by rw [Nat.zero_add]; exact hm) hv
          · cases g
          · rcases g with g | g
            · omega
            · cases g
        exact (pollAll_honest hc n _ _ x.2 hx.1 (Or.inr ⟨by omega, hall⟩) h0).imp fun r hr => ⟨hr.1, hx.2.1.trans hr.2.1, hr.2.2⟩
    · rename_i hlt
      refine ⟨h, Later.refl p, fun _ => ?_⟩
      rcases hi with hi | ⟨_, hi⟩
      · omega
      · exact hi

theorem pollAny_honest {σ : Nat → Turn} {fuel : Nat} {mem : List Int} {count : Nat} : ∀ (n i : Nat) (kind : Kind) (late : Bool) (res : WaitResult) (p : Pool),
    PoolHonest p → Post (pollAny σ fuel mem count n i kind late res p) (fun r => PoolHonest r.2 ∧ Later p r.2 ∧
      (r.1.ec = .ok → ∃ h, mem[r.1.index]? = some h ∧ handleValid h = true ∧ Done r.2 (slotOf h))) Any'
  | 0, _, _, _, _, _, _ => trivial
  | n + 1, i, kind, late, res, p, h => by
    rw [pollAny]
    split
    · dsimp only
      refine (waitChunk_honest h).bind fun x hx => ?_
      split
      · exact (pollAny_honest n _ _ _ _ x.2 hx.1).imp fun r hr => ⟨hr.1, hx.2.1.trans hr.2.1, hr.2.2⟩
      · split
        · rename_i hok
          refine ⟨hx.1, hx.2.1, fun _ => ?_⟩
          rcases hx.2.2 hok with ⟨_, g, _⟩ | ⟨_, _, h0, hm, hv, hd⟩ | ⟨_, g⟩
          · cases g
          · exact ⟨h0, by dsimp only; rw [Nat.add_comm]; exact hm, hv, hd⟩
          · rcases g with g | g
            · split at g <;> omega
            · cases g
        · rename_i hne
          split
          · exact ⟨hx.1, hx.2.1, fun e => absurd e hne⟩
          · exact (pollAny_honest n _ _ _ _ x.2 hx.1).imp fun r hr => ⟨hr.1, hx.2.1.trans hr.2.1, hr.2.2⟩
    · split
      · refine ⟨h, Later.refl p, fun e => ?_⟩
        cases late <;> cases e
      · refine (assert_post _).bind fun _ ha => ⟨h, Later.refl p, fun e => ?_⟩
        have : res.ec = .etimedout := by simpa using ha
        dsimp only at e
        rw [this] at e
        cases e

end Tm.Async
