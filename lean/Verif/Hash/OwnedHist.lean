import Verif.Hash.OwnedInsert
namespace Tm.Hash.Owned

/-! ## Clients of maps whose keys are strings -/

/-- The map and the memory. -/
structure Client' (V : Type) where
  map : HMap V
  heap : Heap

/-- The string in memory: its chars and the terminator; `none` is a null pointer. -/
def cstring (k : Option (List Byte)) : Option (List Byte) := k.map (· ++ [0])

variable {V X W : Type}

/-- The client reads the key it found. -/
def readKey (h : Heap) (a : Nat) : C (Option (List Byte)) := do
  let s ← load h a
  .ok (some (s.takeWhile (· ≠ 0)))

/-- The client reads the value it found; one that was never written is a fault. -/
def readValue (read : Heap → V → C W) (h : Heap) : Option (Option V) → C (Option W)
  | none => .ok none
  | some none => .error .invalid
  | some (some v) => do
    let w ← read h v
    .ok (some w)

/-- One operation of a client. Keys are given by their chars. -/
def Client'.step (vs : Values V X) (read : Heap → V → C W) (mem : Nat → Bool) (fuel : Nat) (c : Client' V) :
    Op (Option (List Byte)) X → C (Seen (Option (List Byte)) W × Client' V)
  | .insert k x => do
    let r ← insert vs mem fuel c.heap c.map (cstring k) x
    .ok (.inserted r.ok, ⟨r.map, r.heap⟩)
  | .find k => do
    let r ← c.map.find c.heap (cstring k)
    let w ← readValue read c.heap r
    .ok (.found w, c)
  | .remove k => do
    let r ← c.map.remove vs c.heap (cstring k)
    .ok (.removed r.ok, ⟨r.map, r.heap⟩)
  | .removeAt i =>
    if c.map.count = 0 then .ok (.removedAt none, c)
    else do
      let e ← c.map.get c.heap i
      match e with
      | none => do
        let r ← c.map.removeIndex vs c.heap i
        .ok (.removedAt none, ⟨r.map, r.heap⟩)
      | some (a, _) => do
        let k ← readKey c.heap a
        let r ← c.map.removeIndex vs c.heap i
        .ok (.removedAt (if r.ok then some k else none), ⟨r.map, r.heap⟩)

def Client'.run (vs : Values V X) (read : Heap → V → C W) (mem : Nat → Bool) (fuel : Nat) (c : Client' V) :
    List (Op (Option (List Byte)) X) → C (List (Seen (Option (List Byte)) W) × Client' V)
  | [] => .ok ([], c)
  | op :: ops => do
    let a ← c.step vs read mem fuel op
    let b ← a.2.run vs read mem fuel ops
    .ok (a.1 :: b.1, b.2)

/-- The same operation with the value changed. -/
def opMap (g : X → W) : Op (Option (List Byte)) X → Op (Option (List Byte)) W
  | .insert k x => .insert k (g x)
  | .find k => .find k
  | .remove k => .remove k
  | .removeAt i => .removeAt i

/-- The key of the operation has no terminator within, and is not null if it is looked up or removed; its value may be copied. -/
def Valid (Fine : X → Prop) : Op (Option (List Byte)) X → Prop
  | .insert k x => (∀ s, k = some s → 0 ∉ s) ∧ Fine x
  | .find k => ∃ s, k = some s ∧ 0 ∉ s
  | .remove k => ∃ s, k = some s ∧ 0 ∉ s
  | .removeAt _ => True

/-! ## One operation -/

variable {vs : Values V X} {own : V → List Nat} {val : Heap → V → W} {Fine : X → Prop} {given : X → W} {read : Heap → V → C W}

theorem chars_cstring {s : List Byte} (hs : 0 ∉ s) : chars (s ++ [0]) = s := by
  induction s with
  | nil => rfl
  | cons b s ih =>
    simp only [List.mem_cons, not_or] at hs
    unfold chars at ih ⊢
    rw [List.cons_append, List.takeWhile_cons_of_pos (by simpa using fun e => hs.1 e.symm), ih hs.2]

/-- The state of a client whose map has the given contents; `l` are the blocks of the rest of the program. -/
structure Good (own : V → List Nat) (val : Heap → V → W) (l : List Nat) (c : Client' V) (f : Contents (Option (List Byte)) W) : Prop where
  owns : Owns c.heap (mapOwn own c.map ++ l)
  sim : ∃ am, Sim own val c.heap c.map am ∧ Inv stringKeys am f ∧ Low stringKeys am

theorem insert_good (P : Proper vs own val Fine given) {l : List Nat} {c : Client' V} {f : Contents (Option (List Byte)) W} (g : Good own val l c f)
    (mem : Nat → Bool) {fuel : Nat} (hfuel : 64 ≤ fuel) {s : List Byte} (hs : 0 ∉ s) {x : X} (hx : Fine x) :
    ∃ r f', insert vs mem fuel c.heap c.map (some (s ++ [0])) x = .ok r ∧ Good own val l ⟨r.map, r.heap⟩ f' ∧ Keep c.heap r.heap l ∧
      (r.ok = true → f' = f.set (some s) (some (given x))) ∧ (r.ok = false → f'.Sub f) := by
  obtain ⟨am, sm, hi, hlow⟩ := g.sim
  unfold insert
  dsimp only
  have h0 : (0 : Byte) ∈ s ++ [0] := by simp
  rcases stringCopy_spec mem none h0 g.owns with ⟨a, h1, e1, o1, k1, hb, c1⟩ | ⟨h1, e1, o1, k1, c1⟩
  · rw [e1, ok_bind, if_neg (by simp)]
    dsimp only
    rcases P.copy mem x h1 _ hx o1 with ⟨v, h2, e2, o2, k2, hv, c2⟩ | ⟨w, h2, e2, o2, k2, c2⟩
    · rw [e2, ok_bind, if_neg (by simp)]
      have s2 : Sim own val h2 c.map am := sm.keep P ((k1.sub fun y hy => List.mem_append_left _ hy).trans
        (k2.sub fun y hy => List.mem_cons_of_mem _ (List.mem_append_left _ hy)))
      have hl : h2.live a = some (chars (s ++ [0]) ++ [0]) := by rw [k2 a (by simp), hb]
      have hch : chars (chars (s ++ [0]) ++ [0]) = s := by rw [chars_term, chars_cstring hs]
      obtain ⟨r, hr, _, hok, hfail, hlow'⟩ := hi.insert mem hfuel h2.calls (k := some s) (by simp) (val h2 v)
      unfold Hash.insert at hr
      rw [if_neg (by simp), ← hch] at hr
      obtain ⟨cm', key', val', h3, e3, s3, c3, a1, a2⟩ := insertMove_sim P mem fuel h2 c.map am a v l _ r s2
        (o2.congr fun y => by simp only [List.count_append, List.count_cons]; omega) hl (by simp) hr
      dsimp only
      rw [e3, ok_bind]
      dsimp only
      have kl : Keep c.heap h2 l := (k1.sub fun y hy => List.mem_append_right _ hy).trans
        (k2.sub fun y hy => List.mem_cons_of_mem _ (List.mem_append_right _ hy))
      cases hro : r.ok with
      | true =>
        obtain ⟨rfl, rfl, o3, k3⟩ := a1 hro
        rw [if_neg (by simp)]
        refine ⟨_, f.set (some s) (some (given x)), rfl, ⟨o3, r.map, s3, ?_, hlow' hlow⟩, kl.trans k3, fun _ => rfl, fun e => by cases e⟩
        have := (hok hro).1
        rw [hv] at this
        exact this
      | false =>
        obtain ⟨rfl, rfl, o3, k3⟩ := a2 hro
        rw [if_pos (by rfl)]
        obtain ⟨⟨f', hsub, hinv⟩, _⟩ := hfail hro
        obtain ⟨h4, e4, o4, k4, c4⟩ := stringDestroy_spec (p := some a) (l := own v ++ (mapOwn own cm' ++ l))
          (o3.congr fun y => by simp only [Option.toList_some, List.count_append, List.count_cons, List.count_nil]; omega)
        obtain ⟨w, h5, e5, o5, k5, c5⟩ := P.destroy v h4 _ o4
        rw [e4, ok_bind]
        dsimp only
        rw [e5, ok_bind]
        refine ⟨_, f', rfl, ⟨o5, r.map, s3.keep P ((k4.sub fun y hy => by simp [hy]).trans (k5.sub fun y hy => by simp [hy])), hinv, hlow' hlow⟩, ?_, ?_, fun _ => hsub⟩
        · exact ((kl.trans (k3.sub fun y hy => by simp [hy])).trans (k4.sub fun y hy => by simp [hy])).trans (k5.sub fun y hy => by simp [hy])
        · intro e; cases e
    · rw [e2, ok_bind, if_pos (by rfl)]
      obtain ⟨h3, e3, o3, k3, c3⟩ := stringDestroy_spec (p := some a) o2
      dsimp only
      rw [e3, ok_bind]
      refine ⟨_, f, rfl, ⟨o3, am, ?_, hi, hlow⟩, ?_, (fun e => by cases e), fun _ _ _ e => e⟩
      · exact sm.keep P (((k1.sub fun y hy => List.mem_append_left _ hy).trans
          (k2.sub fun y hy => List.mem_cons_of_mem _ (List.mem_append_left _ hy))).trans (k3.sub fun y hy => List.mem_append_left _ hy))
      · exact ((k1.sub fun y hy => List.mem_append_right _ hy).trans
          (k2.sub fun y hy => List.mem_cons_of_mem _ (List.mem_append_right _ hy))).trans (k3.sub fun y hy => List.mem_append_right _ hy)
  · rw [e1, ok_bind, if_pos (by rfl)]
    exact ⟨_, f, rfl, ⟨o1, am, sm.keep P (k1.sub fun y hy => List.mem_append_left _ hy), hi, hlow⟩, k1.sub fun y hy => List.mem_append_right _ hy,
      (fun e => by cases e), fun _ _ _ e => e⟩

/-- The slot at which a key is. -/
theorem slot_of {c : Client' V} {f : Contents (Option (List Byte)) W} {am : Map (Option (List Byte)) W}
    (sm : Sim own val c.heap c.map am) (hi : Inv stringKeys am f) {p : Nat} {k : Option (List Byte)} (hp : am.keys[p]? = some k) (hk : k ≠ none) :
    ∃ a v, c.map.slots[p]? = some (some a, some v) ∧ f k = some (val c.heap v) ∧ contentsOf c.heap (some a) = k := by
  have hlt := (List.getElem?_eq_some_iff.mp hp).1
  have hlt' : p < c.map.slots.length := by rw [← sm.length]; exact hlt
  have hx := List.getElem?_eq_getElem hlt'
  generalize c.map.slots[p] = x at hx
  have hkx := sm.key hx
  rw [hp] at hkx
  have hkx := Option.some.inj hkx
  obtain ⟨q, u⟩ := x
  cases q with
  | none => exact absurd hkx hk
  | some a =>
    obtain ⟨v, rfl, hv⟩ := sm.vals p a u hx
    obtain ⟨w, hw, hf⟩ := hi.value p k hp hk
    rw [hv] at hw
    cases hw
    exact ⟨a, v, hx, hf, hkx.symm⟩

theorem clear_good (P : Proper vs own val Fine given) {l : List Nat} {c : Client' V} {f : Contents (Option (List Byte)) W} {am : Map (Option (List Byte)) W}
    (o : Owns c.heap (mapOwn own c.map ++ l)) (sm : Sim own val c.heap c.map am) (hi : Inv stringKeys am f) (hlow : Low stringKeys am)
    {p : Nat} {k : Option (List Byte)} (hp : am.keys[p]? = some k) (hk : k ≠ none) :
    ∃ m' h', c.map.clearSlot vs c.heap p = .ok (m', h') ∧ Good own val l ⟨m', h'⟩ (f.set k none) ∧ Keep c.heap h' l := by
  obtain ⟨a, v, hx, _, _⟩ := slot_of sm hi hp hk
  have hlt := (List.getElem?_eq_some_iff.mp hx).1
  have hcp := countP_set (fun s : Ptr × Option V => s.1.isSome) (none, none) hx
  simp only [Option.isSome_none, Option.isSome_some, Bool.false_eq_true, if_false, if_true] at hcp
  have hl := sm.low
  have h0 : 0 < am.count := by rw [sm.count]; omega
  obtain ⟨am', e, hi', hlow', _, _⟩ := hi.clearSlot hp hk h0
  unfold Map.clearSlot at e
  rw [wr_lt _ (by rw [sm.length]; exact hlt), ok_bind, wr_lt _ (by rw [sm.size]; exact hlt), ok_bind, if_neg (by omega)] at e
  have e : (⟨am.hasData, am.keys.set p none, am.vals.set p none, am.count - 1⟩ : Map _ _) = am' := Except.ok.inj e
  obtain ⟨h1, w, h2, e1, e2, c2, hw⟩ := slot_destroy P sm hx (c.map.count - 1) o
  have hcw := countP_set (fun s : Ptr × Option V => s.1.isSome) (none, w) hx
  simp only [Option.isSome_none, Option.isSome_some, Bool.false_eq_true, if_false, if_true] at hcw
  refine ⟨{ c.map with slots := c.map.slots.set p (none, w), count := c.map.count - 1 }, h2, ?_, ⟨(hw w).1, am', ?_, hi', hlow' hlow⟩, (hw w).2.sub fun y hy => List.mem_append_right _ hy⟩
  · unfold HMap.clearSlot
    rw [at_eq o sm, rd_some hx, ok_bind]
    dsimp only
    rw [e1, ok_bind]
    dsimp only
    rw [e2, ok_bind, wr_lt _ hlt, ok_bind, if_neg (by rw [← sm.count]; omega)]
  · rw [← e, sm.count]
    exact (sm.clear hx w (List.length_set ..) (fun q hq => List.getElem?_set_ne (Ne.symm hq)) (by omega)).keep P
      ((hw w).2.sub fun y hy => List.mem_append_left _ hy)

theorem step_good' (P : Proper vs own val Fine given) (hread : ∀ (h : Heap) (v : V) (l : List Nat), Owns h (own v ++ l) → read h v = .ok (val h v))
    {l : List Nat} {c : Client' V} {f : Contents (Option (List Byte)) W} (g : Good own val l c f) (mem : Nat → Bool) {fuel : Nat} (hfuel : 64 ≤ fuel)
    {op : Op (Option (List Byte)) X} (hop : Valid Fine op) :
    ∃ s c' f', c.step vs read mem fuel op = .ok (s, c') ∧ Explains none f (opMap given op) s f' ∧ Good own val l c' f' ∧ Keep c.heap c'.heap l := by
  cases op with
  | insert k x =>
    obtain ⟨hk, hx⟩ := hop
    cases k with
    | none => exact ⟨_, c, f, rfl, .insertTomb, g, Keep.refl _ _⟩
    | some s =>
      obtain ⟨r, f', e, gd, kp, hok, hfail⟩ := insert_good P g mem hfuel (hk s rfl) hx
      simp only [Client'.step, cstring, Option.map_some]
      rw [e, ok_bind]
      cases hro : r.ok with
      | true => refine ⟨_, _, f', rfl, ?_, gd, kp⟩; rw [hok hro]; exact .insert (by simp)
      | false => exact ⟨_, _, f', rfl, .insertFailed (by simp) (hfail hro), gd, kp⟩
  | find k =>
    obtain ⟨s, rfl, hs⟩ := hop
    obtain ⟨am, sm, hi, hlow⟩ := g.sim
    simp only [Client'.step, cstring, Option.map_some]
    unfold HMap.find
    rw [findIndex_eq g.owns sm (t := s ++ [0]) (by simp), chars_cstring hs]
    rcases hi.findIndex hlow (key := some s) (by simp) with ⟨p, hp, hkey⟩ | ⟨hp, hf⟩
    · obtain ⟨a, v, hx, hf, _⟩ := slot_of sm hi hkey (by simp)
      rw [hp, ok_bind]
      dsimp only
      rw [at_eq g.owns sm, rd_some hx, ok_bind, ok_bind]
      have hv : read c.heap v = .ok (val c.heap v) := by
        refine hread c.heap v (a :: (mapOwn own { c.map with slots := c.map.slots.set p (none, none), count := 0 } ++ l)) (g.owns.congr fun y => ?_)
        have := mapOwn_clear (own := own) hx none 0 y
        simp only [slotOwn, List.count_append, List.count_cons] at this ⊢
        omega
      simp only [readValue, hv, ok_bind]
      refine ⟨_, c, f, rfl, ?_, g, Keep.refl _ _⟩
      rw [← hf]; exact .find
    · rw [hp, ok_bind]
      refine ⟨_, c, f, rfl, ?_, g, Keep.refl _ _⟩
      rw [← hf]; exact .find
  | remove k =>
    obtain ⟨s, rfl, hs⟩ := hop
    obtain ⟨am, sm, hi, hlow⟩ := g.sim
    simp only [Client'.step, cstring, Option.map_some]
    unfold HMap.remove
    rw [findIndex_eq g.owns sm (t := s ++ [0]) (by simp), chars_cstring hs]
    rcases hi.findIndex hlow (key := some s) (by simp) with ⟨p, hp, hkey⟩ | ⟨hp, hf⟩
    · obtain ⟨a, v, hx, hf, _⟩ := slot_of sm hi hkey (by simp)
      obtain ⟨m', h', e, gd, kp⟩ := clear_good P g.owns sm hi hlow hkey (by simp)
      rw [hp, ok_bind]
      dsimp only
      rw [e, ok_bind, ok_bind]
      refine ⟨_, _, f.set (some s) none, rfl, ?_, gd, kp⟩
      have := Explains.remove (tomb := none) (f := f) (k := some s)
      rw [hf] at this
      exact this
    · rw [hp, ok_bind]
      refine ⟨_, c, f, rfl, ?_, g, Keep.refl _ _⟩
      have := Explains.remove (tomb := none) (f := f) (k := some s)
      rw [hf, set_none_of_none hf] at this
      exact this
  | removeAt i =>
    obtain ⟨am, sm, hi, hlow⟩ := g.sim
    simp only [Client'.step]
    by_cases h0 : c.map.count = 0
    · rw [if_pos h0]
      exact ⟨_, c, f, rfl, .removeAtNone, g, Keep.refl _ _⟩
    · rw [if_neg h0]
      have hd : assert (decide (0 < c.map.count)) = .ok () := assert_t (by simpa using Nat.pos_of_ne_zero h0)
      unfold HMap.get HMap.removeIndex
      rw [sm.check, hi.check, ok_bind, hd]
      by_cases hlt : i < c.map.slots.length
      · rw [if_pos hlt, if_pos hlt]
        have hx := List.getElem?_eq_getElem hlt
        generalize c.map.slots[i] = x at hx
        rw [at_eq g.owns sm, rd_some hx, ok_bind, ok_bind]
        obtain ⟨q, u⟩ := x
        cases q with
        | none => exact ⟨_, c, f, rfl, .removeAtNone, g, Keep.refl _ _⟩
        | some a =>
          have hkey := sm.key hx
          have hne : contentsOf c.heap (some a) ≠ none := fun e => by have := (sm.null hx).mp e; cases this
          obtain ⟨b, v, hx', hf, _⟩ := slot_of sm hi hkey hne
          obtain ⟨m', h', e, gd, kp⟩ := clear_good P g.owns sm hi hlow hkey hne
          obtain ⟨t, ht, _⟩ := sm.strs i a u hx
          have hk : readKey c.heap a = .ok (contentsOf c.heap (some a)) := by
            unfold readKey load contentsOf
            simp only [ht, ok_bind, Option.bind_some, Option.map_some]
            rfl
          simp only [Option.map_some, hk, ok_bind, e, if_true]
          exact ⟨_, _, _, rfl, .removeAt (by rw [hf]; rfl), gd, kp⟩
      · rw [if_neg hlt, if_neg hlt]
        exact ⟨_, c, f, rfl, .removeAtNone, g, Keep.refl _ _⟩

theorem run_good' (P : Proper vs own val Fine given) (hread : ∀ (h : Heap) (v : V) (l : List Nat), Owns h (own v ++ l) → read h v = .ok (val h v))
    {l : List Nat} (mem : Nat → Bool) {fuel : Nat} (hfuel : 64 ≤ fuel) (ops : List (Op (Option (List Byte)) X)) (c : Client' V)
    (f : Contents (Option (List Byte)) W) (g : Good own val l c f) (hops : ∀ op ∈ ops, Valid Fine op) :
    ∃ seen c' f', c.run vs read mem fuel ops = .ok (seen, c') ∧ Explained none f (ops.map (opMap given)) seen f' ∧ Good own val l c' f' ∧
      Keep c.heap c'.heap l := by
  induction ops generalizing c f with
  | nil => exact ⟨[], c, f, rfl, .nil, g, Keep.refl _ _⟩
  | cons op ops ih =>
    obtain ⟨s, c1, f1, e1, x1, g1, k1⟩ := step_good' P hread g mem hfuel (hops op List.mem_cons_self)
    obtain ⟨ss, c2, f2, e2, x2, g2, k2⟩ := ih c1 f1 g1 fun o ho => hops o (List.mem_cons_of_mem _ ho)
    refine ⟨s :: ss, c2, f2, ?_, .cons x1 x2, g2, k1.trans k2⟩
    rw [Client'.run, e1, ok_bind, e2]; rfl

/-- A new map. -/
theorem create_good {l : List Nat} {h : Heap} (o : Owns h l) (mem : Nat → Bool) :
    (canAlloc mem h.calls 16 = true ∧ canAlloc mem (h.calls + 1) 16 = true ∧ ∃ m h', create mem h = .ok (m, h') ∧ m.slots.length = 16 ∧
      Good own val l ⟨m, h'⟩ (Contents.empty : Contents (Option (List Byte)) W) ∧ Keep h h' l) ∨
    (canAlloc mem h.calls 16 = true ∧ canAlloc mem (h.calls + 1) 16 = false ∧ ∃ m h', create (V := V) mem h = .ok (m, h') ∧ m.slots = [] ∧ Owns h' l ∧ Keep h h' l) ∨
    (canAlloc mem h.calls 16 = false ∧ ∃ h', create (V := V) mem h = .ok (⟨none, none, [], 0⟩, h') ∧ Owns h' l ∧ Keep h h' l) := by
  unfold create
  rcases o.malloc mem 16 [] with ⟨a1, h1, e1, o1, k1, _, c1⟩ | ⟨a1, h1, e1, o1, k1, c1⟩
  · rcases o1.malloc mem 16 [] with ⟨a2, h2, e2, o2, k2, _, c2⟩ | ⟨a2, h2, e2, o2, k2, c2⟩
    · rw [c1] at a2
      refine Or.inl ⟨a1, a2, ⟨some h.calls, some h1.calls, List.replicate 16 (none, none), 0⟩, h2, by simp only [e1, e2], by simp, ⟨?_, ?_⟩,
        k1.trans (k2.sub fun y hy => List.mem_cons_of_mem _ hy)⟩
      · have hnil : (List.replicate 16 ((none, none) : Ptr × Option V)).flatMap (slotOwn own) = [] := empty_of_low (by simp)
        refine o2.congr fun y => ?_
        unfold mapOwn
        simp only [hnil, Option.toList_some, List.count_append, List.count_cons, List.count_nil]
        omega
      · obtain ⟨b1, b2⟩ := blank_inv (V := W) stringKeys 4 (by omega) (by omega)
        exact ⟨_, blank_sim _ _ _ _, b1, Nat.le_of_eq (Eq.symm b2)⟩
    · rw [c1] at a2
      obtain ⟨h3, e3, o3, k3, c3⟩ := o2.free
      refine Or.inr (Or.inl ⟨a1, a2, _, h3, by simp only [e1, e2, e3, ok_bind]; rfl, rfl, o3, ?_⟩)
      exact (k1.trans (k2.sub fun y hy => List.mem_cons_of_mem _ hy)).trans k3
  · exact Or.inr (Or.inr ⟨a1, h1, by simp only [e1], o1, k1⟩)

end Tm.Hash.Owned
