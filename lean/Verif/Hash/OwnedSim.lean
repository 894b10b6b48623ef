import Verif.Hash.OwnedLemmas
namespace Tm.Hash.Owned

variable {V X W : Type} {vs : Values V X} {own : V → List Nat} {val : Heap → V → W} {Fine : X → Prop} {given : X → W}
variable {h h' : Heap} {cm : HMap V} {am : Map (Option (List Byte)) W}

/-! ## What a map owns -/

/-- The blocks of a slot. -/
def slotOwn (own : V → List Nat) : Ptr × Option V → List Nat
  | (none, _) => []
  | (some a, none) => [a]
  | (some a, some v) => a :: own v

/-- The blocks of a map. -/
def mapOwn (own : V → List Nat) (m : HMap V) : List Nat := m.keysAt.toList ++ (m.valsAt.toList ++ m.slots.flatMap (slotOwn own))

theorem count_set {α : Type} (f : α → List Nat) (a : Nat) : ∀ {s : List α} {i : Nat} {x : α} (y : α), s[i]? = some x →
    ((s.set i y).flatMap f).count a + (f x).count a = (s.flatMap f).count a + (f y).count a
  | [], _, _, _, h => by simp at h
  | z :: s, 0, x, y, h => by
    simp only [List.getElem?_cons_zero, Option.some.injEq] at h
    subst h
    simp only [List.set_cons_zero, List.flatMap_cons, List.count_append]; omega
  | z :: s, i + 1, x, y, h => by
    have := count_set f a (s := s) (i := i) y (by simpa using h)
    simp only [List.set_cons_succ, List.flatMap_cons, List.count_append]; omega

/-- The heap map stands for the abstract one. -/
structure Sim (own : V → List Nat) (val : Heap → V → W) (h : Heap) (cm : HMap V) (am : Map (Option (List Byte)) W) : Prop where
  arrays : cm.keysAt.isSome = true ∧ cm.valsAt.isSome = true
  data : am.hasData = true
  keys : am.keys = cm.slots.map fun s => contentsOf h s.1
  size : am.vals.length = cm.slots.length
  vals : ∀ (i a : Nat) (o : Option V), cm.slots[i]? = some (some a, o) → ∃ v, o = some v ∧ am.vals[i]? = some (some (val h v))
  strs : ∀ (i a : Nat) (o : Option V), cm.slots[i]? = some (some a, o) → ∃ s, h.live a = some s ∧ 0 ∈ s
  count : am.count = cm.count
  low : cm.slots.countP (fun s => s.1.isSome) ≤ cm.count

theorem slot_mem {i : Nat} {x : Ptr × Option V} (hx : cm.slots[i]? = some x) {a : Nat} (ha : a ∈ slotOwn own x) : a ∈ mapOwn own cm := by
  unfold mapOwn
  exact List.mem_append_right _ (List.mem_append_right _ (List.mem_flatMap.mpr ⟨x, List.mem_of_getElem? hx, ha⟩))

theorem Sim.keep (P : Proper vs own val Fine given) (s : Sim own val h cm am) (k : Keep h h' (mapOwn own cm)) : Sim own val h' cm am where
  arrays := s.arrays
  data := s.data
  keys := by
    rw [s.keys]
    apply List.map_congr_left
    intro x hx
    obtain ⟨i, hi⟩ := List.mem_iff_getElem?.mp hx
    refine (contentsOf_keep fun a ha => k a (slot_mem hi ?_)).symm
    obtain ⟨p, o⟩ := x
    cases p with
    | none => simp at ha
    | some b => cases o <;> simp [slotOwn] at ha ⊢ <;> simp [ha]
  size := s.size
  vals := fun i a o hi => by
    obtain ⟨v, e, hv⟩ := s.vals i a o hi
    refine ⟨v, e, ?_⟩
    rw [hv, P.val v h h' fun b hb => k b (slot_mem hi ?_)]
    subst e
    exact List.mem_cons_of_mem _ hb
  strs := fun i a o hi => by
    obtain ⟨t, e, ht⟩ := s.strs i a o hi
    refine ⟨t, ?_, ht⟩
    rw [k a (slot_mem hi ?_), e]
    cases o <;> simp [slotOwn]
  count := s.count
  low := s.low

theorem Sim.length (s : Sim own val h cm am) : am.keys.length = cm.slots.length := by rw [s.keys, List.length_map]

theorem Sim.check (s : Sim own val h cm am) : cm.check = am.check := by
  unfold HMap.check Map.check
  rw [s.arrays.1, s.arrays.2, s.data, s.length, s.count]; rfl

theorem Owns.alive {l : List Nat} (o : Owns h (mapOwn own cm ++ l)) (s : Sim own val h cm am) : (alive h cm.keysAt && alive h cm.valsAt) = true := by
  obtain ⟨a, ha⟩ := Option.isSome_iff_exists.mp s.arrays.1
  obtain ⟨b, hb⟩ := Option.isSome_iff_exists.mp s.arrays.2
  have h1 : a ∈ mapOwn own cm ++ l := by unfold mapOwn; simp [ha]
  have h2 : b ∈ mapOwn own cm ++ l := by unfold mapOwn; simp [hb]
  unfold Owned.alive
  rw [ha, hb]
  simp only [o.live h1, o.live h2, Bool.and_self]

theorem at_eq {l : List Nat} (o : Owns h (mapOwn own cm ++ l)) (s : Sim own val h cm am) (i : Nat) : cm.at h i = rd cm.slots i := by
  unfold HMap.at
  rw [if_pos (o.alive s)]

theorem place_eq (s : Sim own val h cm am) (k : Option (List Byte)) (i : Nat) : place cm.slots.length (hashChars k) i = am.probeIndex stringKeys k i := by
  unfold place Map.probeIndex
  rw [s.length]

theorem keyEquals_eq (s : Sim own val h cm am) {i : Nat} {x : Ptr × Option V} (hx : cm.slots[i]? = some x) {t : List Byte} (ht : 0 ∈ t) :
    keyEquals h x.1 t = .ok (decide (contentsOf h x.1 = some (chars t))) := by
  obtain ⟨p, o⟩ := x
  cases p with
  | none => rfl
  | some a =>
    obtain ⟨u, hu, h0⟩ := s.strs i a o hx
    unfold keyEquals load contentsOf
    simp only [hu, ok_bind, stringEquals, strEq_eq h0 ht, Option.bind_some, Option.map_some, Option.some.injEq]

theorem Sim.key (s : Sim own val h cm am) {i : Nat} {x : Ptr × Option V} (hx : cm.slots[i]? = some x) : am.keys[i]? = some (contentsOf h x.1) := by
  rw [s.keys, List.getElem?_map, hx]; rfl

theorem Sim.null (s : Sim own val h cm am) {i : Nat} {x : Ptr × Option V} (hx : cm.slots[i]? = some x) : contentsOf h x.1 = none ↔ x.1 = none := by
  obtain ⟨p, o⟩ := x
  cases p with
  | none => exact ⟨fun _ => rfl, fun _ => rfl⟩
  | some a =>
    obtain ⟨u, hu, _⟩ := s.strs i a o hx
    simp [contentsOf, hu]

theorem probe_eq {l : List Nat} (o : Owns h (mapOwn own cm ++ l)) (s : Sim own val h cm am) {t : List Byte} (ht : 0 ∈ t) (left i : Nat) (found : Option Nat) :
    cm.probe h (hashChars (some (chars t))) t left i found = am.probe stringKeys (some (chars t)) left i found := by
  induction left generalizing i found with
  | zero => rfl
  | succ left ih =>
    unfold HMap.probe Map.probe
    rw [at_eq o s, place_eq s]
    generalize am.probeIndex stringKeys (some (chars t)) i = p
    cases hx : cm.slots[p]? with
    | none =>
      unfold rd
      rw [hx, s.keys, List.getElem?_map, hx]; rfl
    | some x =>
      rw [rd_some hx, rd_some (s.key hx), ok_bind, ok_bind]
      by_cases hf : found.isNone ∧ x.1 = none
      · rw [if_pos hf, if_pos ⟨hf.1, (s.null hx).mpr hf.2⟩, ih]
      · rw [if_neg hf, if_neg (fun e => hf ⟨e.1, (s.null hx).mp e.2⟩), keyEquals_eq s hx ht, ok_bind]
        by_cases he : contentsOf h x.1 = some (chars t)
        · rw [if_pos (by simpa using he), if_pos he]; rfl
        · rw [if_neg (by simpa using he), if_neg he, ih]

theorem findLoop_eq {l : List Nat} (o : Owns h (mapOwn own cm ++ l)) (s : Sim own val h cm am) {t : List Byte} (ht : 0 ∈ t) (left i : Nat) :
    cm.findLoop h (hashChars (some (chars t))) t left i = am.findLoop stringKeys (some (chars t)) left i := by
  induction left generalizing i with
  | zero => rfl
  | succ left ih =>
    unfold HMap.findLoop Map.findLoop
    rw [at_eq o s, place_eq s]
    generalize am.probeIndex stringKeys (some (chars t)) i = p
    cases hx : cm.slots[p]? with
    | none =>
      unfold rd
      rw [hx, s.keys, List.getElem?_map, hx]; rfl
    | some x =>
      rw [rd_some hx, rd_some (s.key hx), ok_bind, ok_bind, keyEquals_eq s hx ht, ok_bind]
      by_cases he : contentsOf h x.1 = some (chars t)
      · rw [if_pos (by simpa using he), if_pos he]; rfl
      · rw [if_neg (by simpa using he), if_neg he, ih]

theorem findIndex_eq {l : List Nat} (o : Owns h (mapOwn own cm ++ l)) (s : Sim own val h cm am) {t : List Byte} (ht : 0 ∈ t) :
    cm.findIndex h (some t) = am.findIndex stringKeys (some (chars t)) := by
  unfold HMap.findIndex Map.findIndex
  rw [s.check, s.count]
  cases am.check with
  | error e => rfl
  | ok _ =>
    rw [ok_bind, ok_bind]
    split
    · rfl
    · rw [stringHash_eq ht, ok_bind]
      exact findLoop_eq o s ht _ _

/-- What the search for a place finds. -/
theorem probe_spec {K : Type} [DecidableEq K] {ks : Keys K} {m : Map K W} {key : K} {p : Nat} {e : Bool} : ∀ (left i : Nat) (found : Option Nat),
    (∀ q, found = some q → m.keys[q]? = some ks.tomb) → m.probe ks key left i found = .ok (some (p, e)) →
    m.keys[p]? = some (if e then key else ks.tomb)
  | 0, _, found, hf, hp => by
    unfold Map.probe at hp
    cases found with
    | none => cases hp
    | some q => cases hp; exact hf _ rfl
  | left + 1, i, found, hf, hp => by
    unfold Map.probe at hp
    cases hx : m.keys[m.probeIndex ks key i]? with
    | none => unfold rd at hp; rw [hx] at hp; cases hp
    | some k =>
      rw [rd_some hx, ok_bind] at hp
      split at hp
      · rename_i hc
        exact probe_spec left (i + 1) _ (fun q hq => by cases hq; rw [hx, hc.2]) hp
      · split at hp
        · rename_i hk
          cases hp
          rw [hx, hk]; rfl
        · exact probe_spec left (i + 1) found hf hp

/-! ## Destroying -/

theorem destroySlots_spec (P : Proper vs own val Fine given) : ∀ (slots : List (Ptr × Option V)) (h : Heap) (l : List Nat),
    (∀ x ∈ slots, x.1.isSome = true → x.2.isSome = true) → Owns h (slots.flatMap (slotOwn own) ++ l) →
    ∃ h', destroySlots vs slots h = .ok h' ∧ Owns h' l ∧ Keep h h' l ∧ h'.calls = h.calls
  | [], h, l, _, o => ⟨h, rfl, o, Keep.refl _ _, rfl⟩
  | (none, w) :: t, h, l, hv, o => destroySlots_spec P t h l (fun x hx => hv x (List.mem_cons_of_mem _ hx)) o
  | (some a, none) :: t, h, l, hv, o => absurd (hv _ List.mem_cons_self rfl) (by simp)
  | (some a, some v) :: t, h, l, hv, o => by
    obtain ⟨h1, e1, o1, k1, c1⟩ := stringDestroy_spec (p := some a) (l := own v ++ (t.flatMap (slotOwn own) ++ l))
      (o.congr fun x => by simp [slotOwn, List.count_cons, List.count_append])
    obtain ⟨w, h2, e2, o2, k2, c2⟩ := P.destroy v h1 _ o1
    obtain ⟨h3, e3, o3, k3, c3⟩ := destroySlots_spec P t h2 l (fun x hx => hv x (List.mem_cons_of_mem _ hx)) o2
    refine ⟨h3, ?_, o3, ?_, by omega⟩
    · unfold destroySlots
      rw [e1, ok_bind, e2, ok_bind, e3]
    · exact ((k1.sub (by simp +contextual)).trans (k2.sub (by simp +contextual))).trans k3

theorem freeArray_spec {p : Ptr} {l : List Nat} (o : Owns h (p.toList ++ l)) :
    ∃ h', freeArray p h = .ok h' ∧ Owns h' l ∧ Keep h h' l ∧ h'.calls = h.calls := by
  cases p with
  | none => exact ⟨h, rfl, o, Keep.refl _ _, rfl⟩
  | some a => exact Owns.free o

theorem Sim.written (s : Sim own val h cm am) {x : Ptr × Option V} (hx : x ∈ cm.slots) (hk : x.1.isSome = true) : x.2.isSome = true := by
  obtain ⟨i, hi⟩ := List.mem_iff_getElem?.mp hx
  obtain ⟨p, o⟩ := x
  cases p with
  | none => cases hk
  | some a =>
    obtain ⟨v, e, _⟩ := s.vals i a o hi
    show o.isSome = true
    rw [e]; rfl

theorem empty_of_low {slots : List (Ptr × Option V)} (hl : slots.countP (fun s => s.1.isSome) = 0) : slots.flatMap (slotOwn own) = [] := by
  rw [List.flatMap_eq_nil_iff]
  intro x hx
  have := List.countP_eq_zero.mp hl x hx
  obtain ⟨p, o⟩ := x
  cases p with
  | none => rfl
  | some a => simp at this

theorem destroy_spec (P : Proper vs own val Fine given) {l : List Nat} (s : Sim own val h cm am) (o : Owns h (mapOwn own cm ++ l)) :
    ∃ m' h', destroy vs cm h = .ok (m', h') ∧ Owns h' l ∧ Keep h h' l ∧ h'.calls = h.calls := by
  have hal := o.alive s
  have main : ∃ h1, (if cm.keysAt.isSome && cm.valsAt.isSome && decide (0 < cm.count) then
      if alive h cm.keysAt && alive h cm.valsAt then destroySlots vs cm.slots h else .error .invalid else .ok h : C Heap) = .ok h1 ∧
      Owns h1 (cm.keysAt.toList ++ (cm.valsAt.toList ++ l)) ∧ Keep h h1 (cm.keysAt.toList ++ (cm.valsAt.toList ++ l)) ∧ h1.calls = h.calls := by
    rw [s.arrays.1, s.arrays.2, if_pos hal]
    by_cases h0 : 0 < cm.count
    · rw [if_pos (by simpa using h0)]
      exact destroySlots_spec P cm.slots h _ (fun x hx => s.written hx) (o.congr fun x => by
        unfold mapOwn; simp only [List.count_append]; omega)
    · rw [if_neg (by simpa using h0)]
      refine ⟨h, rfl, o.congr fun x => ?_, Keep.refl _ _, rfl⟩
      have hl := s.low
      unfold mapOwn
      rw [empty_of_low (by omega)]
      simp only [List.count_append, List.count_nil]; omega
  obtain ⟨h1, e1, o1, k1, c1⟩ := main
  obtain ⟨h2, e2, o2, k2, c2⟩ := freeArray_spec o1
  obtain ⟨h3, e3, o3, k3, c3⟩ := freeArray_spec o2
  refine ⟨⟨none, none, [], 0⟩, h3, ?_, o3, ?_, by omega⟩
  · unfold destroy destroyEntries
    rw [e1, ok_bind, e2, ok_bind, e3, ok_bind]
  · exact ((k1.sub (by simp +contextual)).trans (k2.sub (by simp +contextual))).trans k3

/-! ## Changing a slot -/

theorem countP_set {α : Type} (q : α → Bool) : ∀ {s : List α} {i : Nat} {x : α} (y : α), s[i]? = some x →
    (s.set i y).countP q + (if q x then 1 else 0) = s.countP q + (if q y then 1 else 0)
  | [], _, _, _, h => by simp at h
  | z :: s, 0, x, y, h => by
    simp only [List.getElem?_cons_zero, Option.some.injEq] at h
    subst h
    simp only [List.set_cons_zero, List.countP_cons]; omega
  | z :: s, i + 1, x, y, h => by
    have := countP_set q (s := s) (i := i) y (by simpa using h)
    simp only [List.set_cons_succ, List.countP_cons]; omega

theorem Sim.clear (s : Sim own val h cm am) {p : Nat} {x : Ptr × Option V} (hx : cm.slots[p]? = some x) (w : Option V) {vals : List (Option W)}
    (hl : vals.length = am.vals.length) (hv : ∀ q, q ≠ p → vals[q]? = am.vals[q]?) {c : Nat}
    (hc : (cm.slots.set p (none, w)).countP (fun s => s.1.isSome) ≤ c) :
    Sim own val h { cm with slots := cm.slots.set p (none, w), count := c } ⟨am.hasData, am.keys.set p none, vals, c⟩ := by
  have hlt := (List.getElem?_eq_some_iff.mp hx).1
  have ne : ∀ (i a : Nat) (o : Option V), (cm.slots.set p (none, w))[i]? = some (some a, o) → i ≠ p ∧ cm.slots[i]? = some (some a, o) := by
    intro i a o hi
    by_cases e : i = p
    · subst e
      rw [List.getElem?_set_self hlt] at hi
      cases hi
    · rw [List.getElem?_set_ne (Ne.symm e)] at hi
      exact ⟨e, hi⟩
  exact {
    arrays := s.arrays
    data := s.data
    keys := by
      show am.keys.set p none = (cm.slots.set p (none, w)).map _
      rw [List.map_set, s.keys]; rfl
    size := by
      show vals.length = (cm.slots.set p (none, w)).length
      rw [hl, s.size, List.length_set]
    vals := fun i a o hi => by
      obtain ⟨hne, hi'⟩ := ne i a o hi
      obtain ⟨v, e, hv'⟩ := s.vals i a o hi'
      exact ⟨v, e, by rw [← hv', ← hv i hne]⟩
    strs := fun i a o hi => s.strs i a o (ne i a o hi).2
    count := rfl
    low := hc }

theorem Sim.fill (s : Sim own val h cm am) {p a : Nat} {w : Option V} (hx : cm.slots[p]? = some (none, w)) {v : V} {t : List Byte}
    (ht : h.live a = some t) (h0 : 0 ∈ t) {c : Nat} (hc : cm.slots.countP (fun s => s.1.isSome) + 1 ≤ c) :
    Sim own val h { cm with slots := cm.slots.set p (some a, some v), count := c }
      ⟨am.hasData, am.keys.set p (some (chars t)), am.vals.set p (some (val h v)), c⟩ := by
  have hlt := (List.getElem?_eq_some_iff.mp hx).1
  exact {
    arrays := s.arrays
    data := s.data
    keys := by
      show am.keys.set p _ = (cm.slots.set p (some a, some v)).map _
      rw [List.map_set, s.keys]
      unfold contentsOf
      simp only [Option.bind_some, ht, Option.map_some]
    size := by
      show (am.vals.set p _).length = (cm.slots.set p _).length
      rw [List.length_set, List.length_set, s.size]
    vals := fun i b o hi => by
      have hi : (cm.slots.set p (some a, some v))[i]? = some (some b, o) := hi
      show ∃ u, o = some u ∧ (am.vals.set p (some (val h v)))[i]? = some (some (val h u))
      by_cases e : i = p
      · subst e
        rw [List.getElem?_set_self hlt] at hi
        cases hi
        exact ⟨v, rfl, List.getElem?_set_self (by rw [s.size]; exact hlt)⟩
      · rw [List.getElem?_set_ne (Ne.symm e)] at hi
        rw [List.getElem?_set_ne (Ne.symm e)]
        exact s.vals i b o hi
    strs := fun i b o hi => by
      have hi : (cm.slots.set p (some a, some v))[i]? = some (some b, o) := hi
      by_cases e : i = p
      · subst e
        rw [List.getElem?_set_self hlt] at hi
        cases hi
        exact ⟨t, ht, h0⟩
      · rw [List.getElem?_set_ne (Ne.symm e)] at hi
        exact s.strs i b o hi
    count := rfl
    low := by
      have := countP_set (fun s : Ptr × Option V => s.1.isSome) (some a, some v) hx
      simp only [Option.isSome_some, if_true, Option.isSome_none, Bool.false_eq_true, if_false] at this
      show (cm.slots.set p (some a, some v)).countP _ ≤ c
      omega }

theorem flatMap_set_congr {α : Type} {f : α → List Nat} {x y : α} (e : f x = f y) : ∀ {s : List α} {i : Nat}, (s.set i x).flatMap f = (s.set i y).flatMap f
  | [], _ => rfl
  | z :: s, 0 => by simp only [List.set_cons_zero, List.flatMap_cons, e]
  | z :: s, i + 1 => by simp only [List.set_cons_succ, List.flatMap_cons, flatMap_set_congr e (s := s) (i := i)]

/-- What a map owns after a slot was emptied. -/
theorem mapOwn_clear {p : Nat} {x : Ptr × Option V} (hx : cm.slots[p]? = some x) (w : Option V) (c a : Nat) :
    (mapOwn own cm).count a =
      (mapOwn own { cm with slots := cm.slots.set p (none, w), count := c }).count a + (slotOwn own x).count a := by
  have := count_set (slotOwn own) a (none, w) hx
  have hs : slotOwn own (none, w) = [] := rfl
  rw [hs, List.count_nil] at this
  unfold mapOwn
  simp only [List.count_append]
  omega

/-- Destroying what is in a slot. -/
theorem slot_destroy (P : Proper vs own val Fine given) (s : Sim own val h cm am) {p : Nat} {b : Nat} {o : Option V} {l : List Nat}
    (hx : cm.slots[p]? = some (some b, o)) (c : Nat) (ow : Owns h (mapOwn own cm ++ l)) :
    ∃ h1 w h2, stringDestroy (some (some b)) h = .ok (some none, h1) ∧ vs.destroy o h1 = .ok (w, h2) ∧ h2.calls = h.calls ∧ ∀ w',
      Owns h2 (mapOwn own { cm with slots := cm.slots.set p (none, w'), count := c } ++ l) ∧
      Keep h h2 (mapOwn own { cm with slots := cm.slots.set p (none, w'), count := c } ++ l) := by
  obtain ⟨v, rfl, _⟩ := s.vals p b o hx
  have nw : ∀ w', mapOwn own { cm with slots := cm.slots.set p (none, w'), count := c } =
      mapOwn own { cm with slots := cm.slots.set p (none, none), count := c } := by
    intro w'
    unfold mapOwn
    simp only [List.append_cancel_left_eq]
    exact flatMap_set_congr (f := slotOwn own) (x := (none, w')) (y := (none, none)) rfl
  obtain ⟨h1, e1, o1, k1, c1⟩ := stringDestroy_spec (p := some b)
    (l := own v ++ (mapOwn own { cm with slots := cm.slots.set p (none, none), count := c } ++ l))
    (ow.congr fun y => by
      have := mapOwn_clear (own := own) hx none c y
      simp only [slotOwn, List.count_cons, List.count_append, Option.toList_some, List.cons_append, List.nil_append] at this ⊢
      omega)
  obtain ⟨w, h2, e2, o2, k2, c2⟩ := P.destroy v h1 _ o1
  refine ⟨h1, w, h2, e1, e2, by omega, fun w' => ?_⟩
  rw [nw w']
  exact ⟨o2, (k1.sub fun x hx => List.mem_append_right _ hx).trans k2⟩

theorem Sim.put (P : Proper vs own val Fine given) (s : Sim own val h cm am) {a p : Nat} {v : V} {l : List Nat} {t : List Byte} {e : Bool}
    {am' : Map (Option (List Byte)) W}
    (o : Owns h (mapOwn own cm ++ (a :: (own v ++ l)))) (ht : h.live a = some t) (h0 : 0 ∈ t)
    (hp : am.keys[p]? = some (if e then some (chars t) else none)) (hput : am.put p e (some (chars t)) (val h v) = .ok am') :
    ∃ cm' h', cm.store vs h p e (some a) (some v) = .ok ⟨true, cm', none, vs.left (some v), h'⟩ ∧ Sim own val h' cm' am' ∧
      Owns h' (mapOwn own cm' ++ l) ∧ Keep h h' l ∧ h'.calls = h.calls := by
  have hlt := (List.getElem?_eq_some_iff.mp hp).1
  have hlt' : p < cm.slots.length := by rw [← s.length]; exact hlt
  have hx := List.getElem?_eq_getElem hlt'
  generalize cm.slots[p] = x at hx
  have hkx : contentsOf h x.1 = if e then some (chars t) else none := by
    have := s.key hx
    rw [hp] at this
    exact (Option.some.inj this).symm
  unfold Map.put at hput
  rw [wr_lt _ hlt, ok_bind, wr_lt _ (by rw [s.size]; exact hlt'), ok_bind] at hput
  have hput : (⟨am.hasData, am.keys.set p (some (chars t)), am.vals.set p (some (val h v)), if e then am.count else am.count + 1⟩ : Map _ _) = am' :=
    Except.ok.inj hput
  rw [s.count] at hput
  -- the slot is emptied
  have main : ∃ h1 w h2, stringDestroy (some x.1) h = .ok (some none, h1) ∧
      destroyOld vs e x.2 h1 = .ok (w, h2) ∧ h2.calls = h.calls ∧
      Owns h2 (mapOwn own { cm with slots := cm.slots.set p (none, none), count := cm.count } ++ (a :: (own v ++ l))) ∧
      Keep h h2 (mapOwn own { cm with slots := cm.slots.set p (none, none), count := cm.count } ++ (a :: (own v ++ l))) ∧
      (cm.slots.set p (none, none)).countP (fun s => s.1.isSome) + 1 ≤ (if e then cm.count else cm.count + 1) := by
    have hcp := countP_set (fun s : Ptr × Option V => s.1.isSome) (none, none) hx
    simp only [Option.isSome_none, Bool.false_eq_true, if_false] at hcp
    have hlow := s.low
    obtain ⟨q, u⟩ := x
    cases e with
    | true =>
      cases q with
      | none => simp [contentsOf] at hkx
      | some b =>
        obtain ⟨h1, w, h2, e1, e2, c2, hw⟩ := slot_destroy P s hx cm.count o
        simp only [Option.isSome_some, if_true] at hcp
        exact ⟨h1, w, h2, e1, by unfold destroyOld; rw [if_pos rfl]; exact e2, c2, (hw none).1, (hw none).2, by rw [if_pos rfl]; omega⟩
    | false =>
      cases q with
      | some b =>
        obtain ⟨z, hz, _⟩ := s.strs p b u hx
        simp [contentsOf, hz] at hkx
      | none =>
        simp only [Option.isSome_none, Bool.false_eq_true, if_false] at hcp
        refine ⟨h, u, h, rfl, rfl, rfl, o.congr fun y => ?_, Keep.refl _ _, by rw [if_neg (by simp)]; omega⟩
        have := mapOwn_clear (own := own) hx none cm.count y
        simp only [slotOwn, List.count_nil] at this
        rw [List.count_append, List.count_append]
        omega
  obtain ⟨h1, w, h2, e1, e2, c2, o2, k2, hcnt⟩ := main
  have s1 : Sim own val h { cm with slots := cm.slots.set p (none, none), count := cm.count }
      ⟨am.hasData, am.keys.set p none, am.vals, cm.count⟩ := by
    refine s.clear hx none rfl (fun _ _ => rfl) ?_
    have hcp := countP_set (fun s : Ptr × Option V => s.1.isSome) (none, none) hx
    simp only [Option.isSome_none, Bool.false_eq_true, if_false] at hcp
    have := s.low
    split at hcp <;> omega
  have s2 := s1.keep P (k2.sub fun x hx => List.mem_append_left _ hx)
  have s3 := s2.fill (p := p) (a := a) (w := none) (v := v) (t := t) (List.getElem?_set_self hlt')
    (by rw [k2 a (by simp)]; exact ht) h0 hcnt
  have hval : val h2 v = val h v := P.val v h h2 (k2.sub fun x hx => by simp [hx])
  rw [hval] at s3
  simp only [List.set_set] at s3
  refine ⟨{ cm with slots := cm.slots.set p (some a, some v), count := if e then cm.count else cm.count + 1 }, h2, ?_, ?_, ?_, ?_, c2⟩
  · unfold HMap.store
    rw [at_eq o s, rd_some hx, ok_bind, e1, ok_bind]
    have hm : destructiveMove (some none : Option Ptr).join (some a) = .ok (some a, none) := rfl
    rw [hm, ok_bind, e2, ok_bind, wr_lt _ hlt', ok_bind]
  · rw [← hput]; exact s3
  · refine o2.congr fun y => ?_
    have hy : (cm.slots.set p (none, none))[p]? = some (none, none) := List.getElem?_set_self hlt'
    have := count_set (slotOwn own) y ((some a, some v) : Ptr × Option V) hy
    rw [List.set_set] at this
    simp only [slotOwn, List.count_nil, List.count_cons] at this
    unfold mapOwn
    simp only [List.count_append, List.count_cons]
    omega
  · exact k2.sub fun x hx => by simp [hx]

end Tm.Hash.Owned
