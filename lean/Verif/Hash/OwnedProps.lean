import Verif.Hash.OwnedHist
/-!
# Maps whose keys are strings: their memory

`refs` are the blocks a map points to. The theorems say that these are exactly the blocks that are in use because of the map, that each of
them has one owner, and that destroying the map gives everything back.
-/
namespace Tm.Hash.Owned

variable {V W : Type}

/-- The blocks a map points to: its two arrays, and for every slot that is not empty its key and the blocks of its value. -/
def refs (valueBlocks : V → List Nat) (m : HMap V) : List Nat :=
  m.keysAt.toList ++ m.valsAt.toList ++ m.slots.flatMap fun s =>
    match s.1 with
    | none => []
    | some key => key :: (match s.2 with | none => [] | some v => valueBlocks v)

/-- The blocks in use are those of the list, and there are finitely many. -/
structure InUse (h : Heap) (l : List Nat) : Prop where
  nodup : l.Nodup
  live : ∀ a, (h.live a).isSome = true ↔ a ∈ l

/-- Blocks come from earlier calls of `malloc`. -/
def Earlier (h : Heap) : Prop := ∀ a, (h.live a).isSome = true → a < h.calls

theorem refs_eq (own : V → List Nat) (m : HMap V) : refs own m = mapOwn own m := by
  unfold refs mapOwn
  rw [List.append_assoc]
  congr 2
  apply congrArg (fun f => m.slots.flatMap f)
  funext s
  obtain ⟨q, u⟩ := s
  cases q <;> cases u <;> rfl

theorem Owns.inUse {h : Heap} {l : List Nat} (o : Owns h l) : InUse h l where
  nodup := List.nodup_iff_count.mpr fun a => by rw [o.count]; split <;> omega
  live := fun a => by
    have := o.count a
    constructor
    · intro e
      rw [if_pos e] at this
      exact List.count_pos_iff.mp (by omega)
    · intro e; exact o.live e

theorem InUse.owns {h : Heap} {l : List Nat} (i : InUse h l) (e : Earlier h) : Owns h l where
  count := fun a => by
    have h1 := List.nodup_iff_count.mp i.nodup a
    split
    · rename_i ha
      have := List.count_pos_iff.mpr ((i.live a).mp ha)
      omega
    · rename_i ha
      exact List.count_eq_zero.mpr fun hm => ha ((i.live a).mpr hm)
  fresh := e

theorem same_live {h h' : Heap} {l : List Nat} (o : Owns h l) (o' : Owns h' l) (k : Keep h h' l) : h'.live = h.live := by
  funext a
  by_cases ha : a ∈ l
  · exact k a ha
  · have n1 : ¬ (h.live a).isSome = true := fun e => ha (o.inUse.live a |>.mp e)
    have n2 : ¬ (h'.live a).isSome = true := fun e => ha (o'.inUse.live a |>.mp e)
    rw [Option.not_isSome_iff_eq_none.mp n1, Option.not_isSome_iff_eq_none.mp n2]

/-- What is common to the theorems. -/
theorem history {X : Type} {vs : Values V X} {own : V → List Nat} {val : Heap → V → W} {Fine : X → Prop} {given : X → W} {read : Heap → V → C W}
    (P : Proper vs own val Fine given) (hread : ∀ (h : Heap) (v : V) (l : List Nat), Owns h (own v ++ l) → read h v = .ok (val h v))
    (mem : Nat → Bool) {fuel : Nat} (hfuel : 64 ≤ fuel) {h0 h : Heap} {l : List Nat} (hu : InUse h0 l) (he : Earlier h0) {m : HMap V}
    (hc : create mem h0 = .ok (m, h)) (hcap : m.slots ≠ []) {ops : List (Op (Option (List Byte)) X)} (hops : ∀ op ∈ ops, Valid Fine op) :
    ∃ seen c f, (⟨m, h⟩ : Client' V).run vs read mem fuel ops = .ok (seen, c) ∧ Explained none Contents.empty (ops.map (opMap given)) seen f ∧
      InUse c.heap (refs own c.map ++ l) ∧ ∃ m' h', destroy vs c.map c.heap = .ok (m', h') ∧ h'.live = h0.live := by
  have o := hu.owns he
  rcases create_good (own := own) (val := val) o mem with ⟨_, _, m1, h1, e1, hl, g, k⟩ | ⟨_, _, m1, h1, e1, hl, _⟩ | ⟨_, h1, e1, _⟩
  · rw [hc] at e1
    cases e1
    obtain ⟨seen, c, f, e, x, g', k'⟩ := run_good' P hread mem hfuel ops ⟨m, h⟩ _ g hops
    obtain ⟨am, sm, _, _⟩ := g'.sim
    obtain ⟨m', h', e2, o2, k2, _⟩ := destroy_spec P sm g'.owns
    exact ⟨seen, c, f, e, x, by rw [refs_eq]; exact g'.owns.inUse, m', h', e2, same_live o o2 ((k.trans k').trans k2)⟩
  · rw [hc] at e1; cases e1; exact absurd hl hcap
  · rw [hc] at e1; cases e1; exact absurd rfl hcap

/-! ## C241: strings as keys -/

/-- The operation does not look up or remove a null pointer, and the chars of its key are not the terminator. -/
def KeyOk {V : Type} : Op (Option (List Byte)) V → Prop
  | .insert k _ => ∀ s, k = some s → 0 ∉ s
  | .find k => ∃ s, k = some s ∧ 0 ∉ s
  | .remove k => ∃ s, k = some s ∧ 0 ∉ s
  | .removeAt _ => True

/-- **C241**: whatever a client does with a map whose keys are strings (`TMH_X_KEY_IS_STRING`) and whose values are trivial
(`TMH_X_VALUE_IS_TRIVIAL`), whichever allocations fail and whatever else is in memory: no operation faults, the answers are those of a
finite map, at the end the blocks in use are exactly those the map points to (each once) and those that were there before, and `destroy`
restores the memory. -/
theorem C241_memory (V : Type) (mem : Nat → Bool) {fuel : Nat} (hfuel : 64 ≤ fuel) {h0 h : Heap} {l : List Nat} (hu : InUse h0 l) (he : Earlier h0)
    {m : HMap V} (hc : create mem h0 = .ok (m, h)) (hcap : m.slots ≠ []) {ops : List (Op (Option (List Byte)) V)} (hops : ∀ op ∈ ops, KeyOk op) :
    ∃ seen c f, (⟨m, h⟩ : Client' V).run (trivialValues V) (fun _ v => .ok v) mem fuel ops = .ok (seen, c) ∧
      Explained none Contents.empty ops seen f ∧ InUse c.heap (refs (fun _ => []) c.map ++ l) ∧
      ∃ m' h', destroy (trivialValues V) c.map c.heap = .ok (m', h') ∧ h'.live = h0.live := by
  obtain ⟨seen, c, f, e, x, u, d⟩ := history (trivial_proper V) (read := fun _ v => .ok v) (fun _ _ _ _ => rfl) mem hfuel hu he hc hcap (ops := ops)
    (fun op ho => by
      have := hops op ho
      cases op with
      | insert k x => exact ⟨this, trivial⟩
      | find k => exact this
      | remove k => exact this
      | removeAt i => trivial)
  refine ⟨seen, c, f, e, ?_, u, d⟩
  have : ops.map (opMap id) = ops := by
    apply (List.map_congr_left fun op _ => ?_).trans (List.map_id ops)
    cases op <;> rfl
  rw [← this]; exact x

/-- No memory in use, no call of `malloc` so far. -/
def noMemory : Heap := ⟨fun _ => none, 0⟩

/-- A map with strings as keys, with every allocation but the fifth one granted: the fifth one is the copy of the third key. -/
example : ∃ m h seen c, create (fun n => n != 4) noMemory = .ok (m, h) ∧ m.slots ≠ [] ∧
    (⟨m, h⟩ : Client' Nat).run (trivialValues Nat) (fun _ v => .ok v) (fun n => n != 4) 64
      [.insert (some [0x61]) 1, .insert (some [0x62]) 2, .insert (some [0x63]) 3, .insert (some [0x61]) 4, .find (some [0x61]), .remove (some [0x62]), .find (some [0x62])] =
        .ok (seen, c) ∧
    seen = [.inserted true, .inserted true, .inserted false, .inserted true, .found (some 4), .removed true, .found none] ∧
    refs (fun _ => []) c.map = [0, 1, 5] := by
  refine ⟨_, _, _, _, rfl, ?_, rfl, ?_, ?_⟩
  · decide +kernel
  · decide +kernel
  · decide +kernel

/-! ## C242: strings as values -/

/-- The client reads a value that is a string. -/
def readString (h : Heap) (p : Ptr) : C (Option (List Byte)) :=
  match p with
  | none => .ok none
  | some a => do
    let s ← load h a
    .ok (some (s.takeWhile (· ≠ 0)))

/-- The operation with the value as a string in memory. -/
def inMemory : Op (Option (List Byte)) (List Byte) → Op (Option (List Byte)) (Option (List Byte))
  | .insert k v => .insert k (some (v ++ [0]))
  | .find k => .find k
  | .remove k => .remove k
  | .removeAt i => .removeAt i

/-- The same operation; a string in the answer is not null. -/
def notNull : Op (Option (List Byte)) (List Byte) → Op (Option (List Byte)) (Option (List Byte))
  | .insert k v => .insert k (some v)
  | .find k => .find k
  | .remove k => .remove k
  | .removeAt i => .removeAt i

/-- The chars of the value are not the terminator. -/
def ValueOk : Op (Option (List Byte)) (List Byte) → Prop
  | .insert _ v => 0 ∉ v
  | _ => True

/-- **C242**, partial: if the values are strings too, with the macros of the documentation for copying and destroying them and with a
`TMH_X_VALUE_MOVE` that sets its source to null, then no operation faults, the answers are those of a finite map, the blocks in use are
those the map points to, each once, and `destroy` restores the memory. Missing: the default `TMH_X_VALUE_MOVE` and values that are null
pointers, for which it is false. -/
theorem C242_memory_partial (mem : Nat → Bool) {fuel : Nat} (hfuel : 64 ≤ fuel) {h0 h : Heap} {l : List Nat} (hu : InUse h0 l) (he : Earlier h0)
    {m : HMap Ptr} (hc : create mem h0 = .ok (m, h)) (hcap : m.slots ≠ []) {ops : List (Op (Option (List Byte)) (List Byte))}
    (hkeys : ∀ op ∈ ops, KeyOk op) (hvals : ∀ op ∈ ops, ValueOk op) :
    ∃ seen c f, (⟨m, h⟩ : Client' Ptr).run (stringValues true) readString mem fuel (ops.map inMemory) = .ok (seen, c) ∧
      Explained none Contents.empty (ops.map notNull) seen f ∧ InUse c.heap (refs (fun v => v.toList) c.map ++ l) ∧
      ∃ m' h', destroy (stringValues true) c.map c.heap = .ok (m', h') ∧ h'.live = h0.live := by
  obtain ⟨seen, c, f, e, x, u, d⟩ := history string_proper (read := readString) (fun h v l o => by
      cases v with
      | none => rfl
      | some a =>
        obtain ⟨s, hs⟩ := Option.isSome_iff_exists.mp (o.live (a := a) (by simp))
        unfold readString load contentsOf
        simp only [hs, ok_bind, Option.bind_some, Option.map_some]
        rfl) mem hfuel hu he hc hcap (ops := ops.map inMemory)
    (fun op ho => by
      obtain ⟨op', ho', rfl⟩ := List.mem_map.mp ho
      have h1 := hkeys op' ho'
      cases op' with
      | insert k v => exact ⟨h1, _, rfl, by simp⟩
      | find k => exact h1
      | remove k => exact h1
      | removeAt i => trivial)
  refine ⟨seen, c, f, e, ?_, u, d⟩
  have : (ops.map inMemory).map (opMap fun x : Option (List Byte) => x.map chars) = ops.map notNull := by
    rw [List.map_map]
    apply List.map_congr_left
    intro op ho
    have := hvals op ho
    cases op with
    | insert k v =>
      show Op.insert k (some (chars (v ++ [0]))) = Op.insert k (some v)
      rw [chars_cstring this]
    | find k => rfl
    | remove k => rfl
    | removeAt i => rfl
  rw [← this]; exact x

/-- One key with one value, replaced once. -/
example : ∃ m h seen c, create (fun _ => true) noMemory = .ok (m, h) ∧ m.slots ≠ [] ∧
    (⟨m, h⟩ : Client' Ptr).run (stringValues true) readString (fun _ => true) 64
      ([.insert (some [0x61]) [0x31], .insert (some [0x61]) [0x32, 0x33], .find (some [0x61])].map inMemory) = .ok (seen, c) ∧
    seen = [.inserted true, .inserted true, .found (some (some [0x32, 0x33]))] ∧ refs (fun v => v.toList) c.map = [0, 1, 4, 5] := by
  refine ⟨_, _, _, _, rfl, ?_, rfl, ?_, ?_⟩
  · decide +kernel
  · decide +kernel
  · decide +kernel

/-- Twelve different keys. -/
def twelve : List (Op (Option (List Byte)) (List Byte)) := (List.range 12).map fun n => .insert (some [BitVec.ofNat 8 (0x61 + n)]) [0x76]

/-- The outcome is a fault. -/
def faults {α : Type} : C α → Bool
  | .error .invalid => true
  | _ => false

/-- A client with a new map, all allocations granted. -/
def withNewMap (vs : Values Ptr (Option (List Byte))) (ops : List (Op (Option (List Byte)) (Option (List Byte)))) :
    C (List (Seen (Option (List Byte)) (Option (List Byte))) × Client' Ptr) := do
  let c ← create (fun _ => true) noMemory
  (⟨c.1, c.2⟩ : Client' Ptr).run vs readString (fun _ => true) 64 ops

/-- **C242** fails for strings as values with the macros of the documentation and the default `TMH_X_VALUE_MOVE`: when the map grows, the
values are given back although the new table points to them. After twelve insertions, reading the value of the first key uses a
block that was given back, and destroying the map gives blocks back twice. -/
theorem C242_not_grow :
    faults (withNewMap (stringValues false) (twelve.map inMemory)) = false ∧
    faults (withNewMap (stringValues false) (twelve.map inMemory ++ [.find (some [0x61])])) = true ∧
    faults (do
      let r ← withNewMap (stringValues false) (twelve.map inMemory)
      destroy (stringValues false) r.2.map r.2.heap) = true := by
  decide +kernel

/-- **C242** fails for null pointers as values, which `tmh_string_copy` accepts: the value in the map is never written, and
destroying it reads it. -/
theorem C242_not_null :
    faults (withNewMap (stringValues true) [.insert (some [0x61]) none]) = false ∧
    faults (withNewMap (stringValues true) [.insert (some [0x61]) none, .remove (some [0x61])]) = true ∧
    faults (do
      let r ← withNewMap (stringValues true) [.insert (some [0x61]) none]
      destroy (stringValues true) r.2.map r.2.heap) = true := by
  decide +kernel

/-! ## C243: a map that could not be created -/

/-- **C243**, partial: if the first array cannot be had, or both can, destroying the map at once restores the memory. Missing: the case
in which only the second array cannot be had, for which it is false. -/
theorem C243_destroy_partial {X : Type} (vs : Values V X) (mem : Nat → Bool) {h0 : Heap} {l : List Nat} (hu : InUse h0 l) (he : Earlier h0)
    (hm : mem h0.calls = true → mem (h0.calls + 1) = true) :
    ∃ m h m' h', create mem h0 = .ok (m, h) ∧ (m.slots ≠ [] ↔ mem h0.calls = true) ∧ destroy vs m h = .ok (m', h') ∧ h'.live = h0.live := by
  have o := hu.owns he
  have big : ∀ n, canAlloc mem n 16 = mem n := fun n => by unfold canAlloc; simp
  unfold create
  rcases o.malloc mem 16 [] with ⟨a1, h1, e1, o1, k1, _, c1⟩ | ⟨a1, h1, e1, o1, k1, c1⟩
  · rcases o1.malloc mem 16 [] with ⟨a2, h2, e2, o2, k2, _, c2⟩ | ⟨a2, h2, e2, o2, k2, c2⟩
    · obtain ⟨h3, e3, o3, k3, _⟩ := Owns.free (h := h2) (a := h0.calls) (l := h1.calls :: l)
        (o2.congr fun y => by simp only [List.count_cons]; omega)
      obtain ⟨h4, e4, o4, k4, _⟩ := o3.free
      refine ⟨_, _, ⟨none, none, [], 0⟩, h4, by simp only [e1, e2]; rfl, ?_, ?_, same_live o o4 ?_⟩
      · rw [big] at a1
        simp [a1]
      · unfold destroy destroyEntries freeArray
        simp only [Nat.lt_irrefl, decide_false, Bool.and_false, Bool.false_eq_true, if_false, ok_bind, e3, e4]
      · exact ((k1.trans (k2.sub fun y hy => List.mem_cons_of_mem _ hy)).trans (k3.sub fun y hy => List.mem_cons_of_mem _ hy)).trans k4
    · rw [big] at a1 a2
      rw [c1, hm a1] at a2
      cases a2
  · refine ⟨_, _, _, _, by simp only [e1]; rfl, ?_, rfl, same_live o o1 k1⟩
    rw [big] at a1
    simp [a1]

/-- The program has one block; no memory for the map. -/
example : ∃ m h m' h', create (V := Nat) (fun _ => false) ⟨fun a => if a = 0 then some [] else none, 1⟩ = .ok (m, h) ∧ m.slots = [] ∧
    destroy (trivialValues Nat) m h = .ok (m', h') ∧ h'.live = fun a => if a = 0 then some [] else none :=
  ⟨_, _, _, _, rfl, rfl, rfl, rfl⟩

/-- **C243** fails if only the second array cannot be had: the first one was given back, the map still points to it, and `destroy` gives
it back again. -/
theorem C243_not_create : ∃ m h, create (V := Nat) (fun n => n == 0) noMemory = .ok (m, h) ∧ m.count = 0 ∧ m.slots = [] ∧
    faults (destroy (trivialValues Nat) m h) = true := by
  refine ⟨_, _, rfl, rfl, rfl, ?_⟩
  decide +kernel

/-! ## C244: the functions for strings -/

/-- **C244**: `tmh_string_equals` says whether both are null, or both are strings with the same chars; what is behind the terminators does
not matter. -/
theorem C244_equals (a b : Option (List Byte × List Byte)) (ha : ∀ s r, a = some (s, r) → 0 ∉ s) (hb : ∀ s r, b = some (s, r) → 0 ∉ s) :
    stringEquals (a.map fun x => x.1 ++ 0 :: x.2) (b.map fun x => x.1 ++ 0 :: x.2) = .ok (decide (a.map Prod.fst = b.map Prod.fst)) := by
  have ch : ∀ (s r : List Byte), 0 ∉ s → chars (s ++ 0 :: r) = s := by
    intro s r hs
    unfold chars
    rw [List.takeWhile_append_of_pos (by intro x hx; simp only [ne_eq, decide_eq_true_eq]; rintro rfl; exact hs hx), List.takeWhile_cons_of_neg (by simp), List.append_nil]
  cases a with
  | none => cases b <;> rfl
  | some x =>
    cases b with
    | none => rfl
    | some y =>
      simp only [Option.map_some, stringEquals, strEq_eq (List.mem_append_right _ List.mem_cons_self) (List.mem_append_right _ List.mem_cons_self),
        ch _ _ (ha _ _ rfl), ch _ _ (hb _ _ rfl), Option.some.injEq]

example : stringEquals (some [0x61, 0, 0x62]) (some [0x61, 0]) = .ok true ∧ stringEquals (some [0x61, 0]) (some [0x61, 0x62, 0]) = .ok false ∧
    stringEquals none (some [0]) = .ok false := ⟨rfl, rfl, rfl⟩

/-- **C244**: `tmh_string_copy` of a string either gives a new block with the chars and a terminator and says so, or leaves the memory as it
is and says that too; giving the copy back with `tmh_string_destroy` restores the memory. -/
theorem C244_copy (mem : Nat → Bool) (out : Option Ptr) {s : List Byte} (hs : 0 ∉ s) (rest : List Byte) {h : Heap} {l : List Nat} (hu : InUse h l) (he : Earlier h) :
    (∃ a h' h'', stringCopy mem out (some (s ++ 0 :: rest)) h = .ok (true, some (some a), h') ∧ a ∉ l ∧ InUse h' (a :: l) ∧ h'.live a = some (s ++ [0]) ∧
      (∀ b ∈ l, h'.live b = h.live b) ∧ stringDestroy (some (some a)) h' = .ok (some none, h'') ∧ h''.live = h.live) ∨
    (∃ h', stringCopy mem out (some (s ++ 0 :: rest)) h = .ok (false, some none, h') ∧ h'.live = h.live) := by
  have o := hu.owns he
  have ch : chars (s ++ 0 :: rest) = s := by
    unfold chars
    rw [List.takeWhile_append_of_pos (by intro x hx; simp only [ne_eq, decide_eq_true_eq]; rintro rfl; exact hs hx), List.takeWhile_cons_of_neg (by simp), List.append_nil]
  rcases stringCopy_spec (l := l) mem out (s := s ++ 0 :: rest) (by simp) o with ⟨a, h', e, o', k, hb, _⟩ | ⟨h', e, o', k, _⟩
  · obtain ⟨h'', e2, o2, k2, _⟩ := stringDestroy_spec (p := some a) (l := l) o'
    rw [ch] at hb
    exact Or.inl ⟨a, h', h'', e, (List.nodup_cons.mp o'.inUse.nodup).1, o'.inUse, hb, k, e2, same_live o o2 (k.trans k2)⟩
  · exact Or.inr ⟨h', e, same_live o o' k⟩

example : ∃ h', stringCopy (fun _ => true) none (some [0x61, 0x62, 0, 0x63]) noMemory = .ok (true, some (some 0), h') ∧ h'.live 0 = some [0x61, 0x62, 0] :=
  ⟨_, rfl, rfl⟩

end Tm.Hash.Owned
