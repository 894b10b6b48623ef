import Verif.Hash.Hist
import Mathlib.Data.List.Nodup
import Mathlib.Data.List.Perm.Subperm
/-!
# Properties of the hash map (C18 - C23, C61)

`mem n` says whether the `n`-th call of `malloc` succeeds, and is arbitrary. `fuel` bounds the depth of the recursion between
`insert_move`, `grow` and `rehash`, and 64 is always enough.
-/
namespace Tm.Hash

variable {K V : Type} [DecidableEq K]

/-! Keys of the examples: the tombstone is 0, `hash k = k / 100`. -/

def exKeys : Keys Nat := ⟨0, fun k => BitVec.ofNat 64 (k / 100)⟩

/-- all memory is available -/
def exMem : Nat → Bool := fun _ => true

/-! ## C18 -/

/-- **C18**, partial: whatever a client does with a new map, however the hash function behaves and whichever allocations fail, no
operation faults, and all results are those of a finite map. Missing: looking up and removing the tombstone key
(`C18_not_tombstone`), and an insertion that reports failure may lose entries (`C22_not_kept`). -/
theorem C18_finite_map_partial (ks : Keys K) (mem : Nat → Bool) {fuel : Nat} (hfuel : 64 ≤ fuel)
    (hnew : (Client.fresh ks mem : Client K V).map.hasData = true) (ops : List (Op K V)) (hops : ∀ op ∈ ops, op.Proper ks.tomb) :
    ∃ seen c f, (Client.fresh ks mem).run ks mem fuel ops = .ok (seen, c) ∧ Explained ks.tomb Contents.empty ops seen f ∧
      ∀ k, k ≠ ks.tomb → (c.map.find ks k >>= readFound) = .ok (f k) := by
  obtain ⟨h, hx⟩ := fresh_good ks mem hnew
  obtain ⟨seen, c, f, h1, h2, h3, h4, _⟩ := run_good mem hfuel ops _ _ h (Nat.le_of_eq hx.symm) hops
  exact ⟨seen, c, f, h1, h2, fun k hk => h3.find h4 hk⟩

/-- three keys with the same hash; one is removed, one overwritten -/
example : ((Client.fresh exKeys exMem).run exKeys exMem 64
    [.insert 501 'a', .insert 502 'b', .insert 503 'c', .remove 501, .insert 503 'd', .find 503, .find 501, .find 502, .remove 501,
      .insert 0 'x', .removeAt 6]).map Prod.fst =
    .ok [.inserted true, .inserted true, .inserted true, .removed true, .inserted true, .found (some 'd'), .found none, .found (some 'b'),
      .removed false, .inserted false, .removedAt (some 502)] := by decide +kernel

/-- **C18** fails when the tombstone key is used: removing it reports success, and hides an entry that was never removed. -/
theorem C18_not_tombstone :
    ∃ (ops : List (Op Nat Nat)) (seen : List (Seen Nat Nat)) (c : Client Nat Nat),
      (Client.fresh exKeys exMem).run exKeys exMem 64 ops = .ok (seen, c) ∧
      ¬ ∃ g, Explained exKeys.tomb Contents.empty ops seen g := by
  refine ⟨[.insert 500 7, .remove 0, .find 500], [.inserted true, .removed true, .found none],
    ⟨⟨true, (List.replicate 16 0).set 5 500, (List.replicate 16 none).set 5 (some 7), 0⟩, 2⟩, by decide +kernel, ?_⟩
  rintro ⟨g, h⟩
  cases h with
  | cons h1 h =>
    cases h1
    cases h with
    | cons h2 h =>
      generalize hs : Seen.removed true = s at h2
      cases h2
      simp [Contents.set, Contents.empty] at hs

/-! ## C19 -/

/-- **C19**, partial: the reported count is the number of keys that are present. Missing: histories in which an insertion failed
for lack of memory (`C22_not_kept`: the count can then be too large) or the tombstone is removed (`C19_not_tombstone`). -/
theorem C19_count_partial (ks : Keys K) (mem : Nat → Bool) {fuel : Nat} (hfuel : 64 ≤ fuel)
    (hnew : (Client.fresh ks mem : Client K V).map.hasData = true) (ops : List (Op K V)) (hops : ∀ op ∈ ops, op.Proper ks.tomb) :
    ∃ seen c f, (Client.fresh ks mem).run ks mem fuel ops = .ok (seen, c) ∧ Explained ks.tomb Contents.empty ops seen f ∧
      ((∀ x ∈ ops.zip seen, ¬ FailedInsert ks.tomb x) → f.HasSize c.map.count) := by
  obtain ⟨h, hx⟩ := fresh_good ks mem hnew
  obtain ⟨seen, c, f, h1, h2, h3, h4, h5⟩ := run_good mem hfuel ops _ _ h (Nat.le_of_eq hx.symm) hops
  exact ⟨seen, c, f, h1, h2, fun hn => h3.hasSize (h5 hx hn)⟩

example : ((Client.fresh exKeys exMem).run exKeys exMem 64
    [.insert 501 'a', .insert 502 'b', .insert 503 'c', .remove 501, .insert 503 'd', .insert 0 'x']).map (fun r => r.2.map.count) = .ok 2 := by
  decide +kernel

/-- **C19** fails when the tombstone is removed: one key is present and the count is 0. -/
theorem C19_not_tombstone :
    ∃ (ops : List (Op Nat Nat)) (seen : List (Seen Nat Nat)) (c : Client Nat Nat),
      (Client.fresh exKeys exMem).run exKeys exMem 64 ops = .ok (seen, c) ∧ c.map.count = 0 ∧ Shows exKeys c.map 5 500 7 :=
  ⟨[.insert 500 7, .remove 0], [.inserted true, .removed true],
    ⟨⟨true, (List.replicate 16 0).set 5 500, (List.replicate 16 none).set 5 (some 7), 0⟩, 2⟩, by decide +kernel, rfl, by
      unfold Shows; decide +kernel⟩

/-! ## C20 -/

theorem shows_iff {ks : Keys K} {m : Map K V} {f : Contents K V} (h : Inv ks m f) (i : Nat) (k : K) (v : V) :
    Shows ks m i k v ↔ m.keys[i]? = some k ∧ k ≠ ks.tomb ∧ f k = some v := by
  unfold Shows
  rcases h.get i with ⟨k', v', hg, h1, h2, h3⟩ | ⟨hg, h1⟩
  · rw [hg]
    constructor
    · intro e; cases e; exact ⟨h1, h2, h3⟩
    · rintro ⟨a, b, c⟩
      rw [h1] at a; cases a
      rw [h3] at c; cases c
      rfl
  · rw [hg]
    constructor
    · intro e; cases e
    · rintro ⟨a, b, _⟩; exact absurd (h1 k a) b

theorem shows_exists {ks : Keys K} {m : Map K V} {f : Contents K V} (h : Inv ks m f) (k : K) (v : V) :
    (∃ i, Shows ks m i k v) ↔ f k = some v := by
  constructor
  · rintro ⟨i, hi⟩; exact ((shows_iff h i k v).mp hi).2.2
  · intro hf
    obtain ⟨hk, i, hi⟩ := h.only k v hf
    exact ⟨i, (shows_iff h i k v).mpr ⟨hi, hk, hf⟩⟩

/-- **C20**, partial: after any history, when growing the table succeeds, it shows exactly the same entries, each at one index
only, the count is the number of entries, and the capacity is a power of two, at least twice as large. Missing: growing that fails in
the middle loses entries (`C20_not_kept`). -/
theorem C20_grow_partial (ks : Keys K) (mem : Nat → Bool) {fuel : Nat} (hfuel : 64 ≤ fuel)
    (hnew : (Client.fresh ks mem : Client K V).map.hasData = true) (ops : List (Op K V)) (seen : List (Seen K V)) (c : Client K V)
    (hrun : (Client.fresh ks mem).run ks mem fuel ops = .ok (seen, c)) :
    ∃ r, grow ks mem (insertMove ks mem fuel) c.map c.calls = .ok r ∧
      (r.ok = true →
        (∀ k v, (∃ i, Shows ks r.map i k v) ↔ ∃ i, Shows ks c.map i k v) ∧
        (∀ i j k v w, Shows ks r.map i k v → Shows ks r.map j k w → i = j) ∧
        (∃ f : Contents K V, (∀ k v, f k = some v ↔ ∃ i, Shows ks c.map i k v) ∧ f.HasSize r.map.count) ∧
        (∃ e, r.map.capacity = 2 ^ e) ∧ 2 * c.map.capacity ≤ r.map.capacity) := by
  obtain ⟨h0, _⟩ := fresh_good ks mem hnew
  obtain ⟨f, h⟩ := run_any mem hfuel ops h0 hrun
  obtain ⟨r, hr, _, hg, _⟩ := grow_good (insertMove_good ks mem fuel (0 + 1) (by omega)) h h.pos c.calls
  refine ⟨r, hr, fun ho => ?_⟩
  obtain ⟨h1, h2, h3⟩ := hg ho
  refine ⟨fun k v => by rw [shows_exists h1, shows_exists h], ?_, ⟨f, fun k v => (shows_exists h k v).symm, h1.hasSize h2⟩, ?_, h3⟩
  · intro i j k v w hi hj
    obtain ⟨a, b, _⟩ := (shows_iff h1 i k v).mp hi
    obtain ⟨a', _, _⟩ := (shows_iff h1 j k w).mp hj
    exact h1.uniq i j k a a' b
  · obtain ⟨e, _, _, he⟩ := h1.size
    exact ⟨e, he⟩

/-- keys that collide in 16 slots and not in 32 -/
example : ((Client.fresh exKeys exMem).run exKeys exMem 64 [.insert 501 'a', .insert 2101 'b', .remove 501, .insert 503 'c'] >>= fun r =>
      grow exKeys exMem (insertMove exKeys exMem 64) r.2.map r.2.calls).map (fun r =>
        (r.ok, r.map.capacity, r.map.count, r.map.keys[5]?, r.map.keys[21]?)) = .ok (true, 32, 2, some 503, some 2101) := by decide +kernel

/-! ## C21 -/

/-- **C21**: after any history `insert` returns. If it reports success the entry is stored; if it reports failure the key is the
tombstone or memory was refused. -/
theorem C21_returns (ks : Keys K) (mem : Nat → Bool) {fuel : Nat} (hfuel : 64 ≤ fuel)
    (hnew : (Client.fresh ks mem : Client K V).map.hasData = true) (ops : List (Op K V)) (seen : List (Seen K V)) (c : Client K V)
    (hrun : (Client.fresh ks mem).run ks mem fuel ops = .ok (seen, c)) (k : K) (v : V) :
    ∃ r, insert ks mem fuel c.map c.calls k v = .ok r ∧
      (r.ok = true → ∃ i, Shows ks r.map i k v) ∧
      (r.ok = false → k = ks.tomb ∨ ∃ j elements, c.calls ≤ j ∧ j < r.calls ∧ canAlloc mem j elements = false) := by
  obtain ⟨h0, _⟩ := fresh_good ks mem hnew
  obtain ⟨f, h⟩ := run_any mem hfuel ops h0 hrun
  by_cases hk : k = ks.tomb
  · subst hk
    unfold insert
    rw [if_pos rfl]
    exact ⟨_, rfl, fun e => by (cases e), fun _ => Or.inl rfl⟩
  · obtain ⟨r, hr, _, h1, h2, _⟩ := h.insert mem hfuel c.calls hk v
    refine ⟨r, hr, fun ho => ?_, fun ho => Or.inr (h2 ho).2⟩
    rw [shows_exists (h1 ho).1]
    simp [Contents.set]

example : ((Client.fresh exKeys exMem).run exKeys exMem 64
    [.insert 501 'a', .insert 2101 'b', .remove 501, .remove 0, .insert 503 'c']).map (fun r => r.2.map.count) = .ok 1 := by decide +kernel

/-- sixteen keys with the same hash as another key are in the map -/
def Crowded (ks : Keys K) (m : Map K V) (k : K) : Prop :=
  ∃ l : List K, l.length = 16 ∧ l.Nodup ∧ k ∉ l ∧ ∀ x ∈ l, ks.hash x = ks.hash k ∧ ∃ i v, Shows ks m i x v

theorem same_hash_le {ks : Keys K} {m : Map K V} {f : Contents K V} (h : Inv ks m f) (hs : U64) (l : List K) (hn : l.Nodup)
    (hl : ∀ x ∈ l, ks.hash x = hs ∧ x ≠ ks.tomb ∧ ∃ p : Nat, m.keys[p]? = some x) : l.length ≤ 16 := by
  classical
  have hex : ∀ x ∈ l, ∃ i, i < 16 ∧ m.keys[m.probeIndex ks x i]? = some x := by
    intro x hx
    obtain ⟨_, h2, p, hp⟩ := hl x hx
    obtain ⟨i, hi, rfl⟩ := h.place p x hp h2
    exact ⟨i, hi, hp⟩
  let g : K → Nat := fun x => if hx : x ∈ l then Classical.choose (hex x hx) else 0
  have hg : ∀ x ∈ l, g x < 16 ∧ m.keys[m.probeIndex ks x (g x)]? = some x := by
    intro x hx
    have := Classical.choose_spec (hex x hx)
    simp only [g, dif_pos hx]
    exact this
  have hinj : ∀ x ∈ l, ∀ y ∈ l, g x = g y → x = y := by
    intro x hx y hy e
    have h1 := (hg x hx).2
    have h2 := (hg y hy).2
    have : m.probeIndex ks x (g x) = m.probeIndex ks y (g y) := by
      unfold Map.probeIndex
      rw [(hl x hx).1, (hl y hy).1, e]
    rw [this, h2] at h1
    cases h1; rfl
  have hmap : (l.map g).Nodup := List.Nodup.map_on hinj hn
  have hsub : l.map g ⊆ List.range 16 := by
    intro i hi
    obtain ⟨x, hx, rfl⟩ := List.mem_map.mp hi
    exact List.mem_range.mpr (hg x hx).1
  have := (List.subperm_of_subset hmap hsub).length_le
  simpa using this

/-- A key whose hash is shared by sixteen stored keys cannot be inserted, whatever memory there is. -/
theorem C21_crowded (ks : Keys K) (mem : Nat → Bool) {fuel : Nat} (hfuel : 64 ≤ fuel)
    (hnew : (Client.fresh ks mem : Client K V).map.hasData = true) (ops : List (Op K V)) (seen : List (Seen K V)) (c : Client K V)
    (hrun : (Client.fresh ks mem).run ks mem fuel ops = .ok (seen, c)) (k : K) (v : V) (hc : Crowded ks c.map k) :
    ∃ r, insert ks mem fuel c.map c.calls k v = .ok r ∧ r.ok = false := by
  obtain ⟨h0, _⟩ := fresh_good ks mem hnew
  obtain ⟨f, h⟩ := run_any mem hfuel ops h0 hrun
  by_cases hk : k = ks.tomb
  · subst hk
    unfold insert
    rw [if_pos rfl]
    exact ⟨_, rfl, rfl⟩
  · obtain ⟨r, hr, _, h1, _⟩ := h.insert mem hfuel c.calls hk v
    refine ⟨r, hr, ?_⟩
    cases ho : r.ok with
    | false => rfl
    | true =>
      exfalso
      obtain ⟨l, hlen, hn, hkl, hx⟩ := hc
      have hi := (h1 ho).1
      have := same_hash_le hi (ks.hash k) (k :: l) (List.nodup_cons.mpr ⟨hkl, hn⟩) (by
        intro x hxm
        rcases List.mem_cons.mp hxm with rfl | hxl
        · have := hi.only x v (by simp [Contents.set])
          exact ⟨rfl, this⟩
        · obtain ⟨e, i, w, hs⟩ := hx x hxl
          have hfx := (shows_exists h x w).mp ⟨i, hs⟩
          have := hi.only x w (by
            unfold Contents.set
            rw [if_neg]
            · exact hfx
            · rintro rfl; exact hkl hxl)
          exact ⟨e, this⟩)
      simp [hlen] at this

/-- sixteen keys with hash 5 in a table that was grown twice (until memory ran out) -/
example : ((Client.fresh exKeys (fun n => decide (n < 6))).run exKeys (fun n => decide (n < 6)) 64
      ((List.range 17).map fun i => .insert (501 + i) i)).map (fun r => (r.1.getLast?, r.2.map.capacity, r.2.map.count)) =
    .ok (some (.inserted false), 64, 16) := by decide +kernel

/-! ## C22 -/

/-- **C22**, partial: after any history, if the memory for growing the table is refused, `insert` either stores the entry without
needing memory or reports failure and leaves the map exactly as it was. If a later allocation of the same insertion is refused, every
entry left was there before; missing: that all of them are left (`C22_not_kept`). -/
theorem C22_kept_partial (ks : Keys K) (mem : Nat → Bool) {fuel : Nat} (hfuel : 64 ≤ fuel)
    (hnew : (Client.fresh ks mem : Client K V).map.hasData = true) (ops : List (Op K V)) (seen : List (Seen K V)) (c : Client K V)
    (hrun : (Client.fresh ks mem).run ks mem fuel ops = .ok (seen, c)) (k : K) (v : V) :
    ∃ r, insert ks mem fuel c.map c.calls k v = .ok r ∧
      (mem c.calls = false ∨ mem (c.calls + 1) = false → (r.ok = true ∧ r.calls = c.calls) ∨ (r.ok = false ∧ r.map = c.map)) ∧
      (r.ok = false → ∀ i x w, Shows ks r.map i x w → ∃ j, Shows ks c.map j x w) := by
  obtain ⟨h0, _⟩ := fresh_good ks mem hnew
  obtain ⟨f, h⟩ := run_any mem hfuel ops h0 hrun
  by_cases hk : k = ks.tomb
  · subst hk
    unfold insert
    rw [if_pos rfl]
    exact ⟨_, rfl, fun _ => Or.inr ⟨rfl, rfl⟩, fun _ i x w hs => ⟨i, hs⟩⟩
  · obtain ⟨r, hr, _, _, h2, _⟩ := h.insert mem hfuel c.calls hk v
    refine ⟨r, hr, fun hm => ?_, fun ho i x w hs => ?_⟩
    · have hgrow : ∀ ins : Ins K V, grow ks mem ins c.map c.calls = .ok ⟨false, c.map, c.calls + 2⟩ := by
        intro ins
        unfold grow canAlloc
        rcases hm with hm | hm <;> simp [hm]
      unfold insert at hr
      rw [if_neg hk] at hr
      obtain ⟨fuel, rfl⟩ : ∃ g, fuel = g + 1 := ⟨fuel - 1, by omega⟩
      rw [insertMove, h.check, ok_bind, if_neg hk] at hr
      unfold growIfFull at hr
      split at hr
      · rw [hgrow, ok_bind] at hr
        cases hr
        exact Or.inr ⟨rfl, rfl⟩
      · rw [ok_bind, if_neg (by simp), insertLoop] at hr
        rcases h.probe hk maxProbe 0 none with ⟨p, j, a, _, _, _, e⟩ | ⟨p, a, _, _⟩ | ⟨a, _, _⟩
        · rw [a, ok_bind] at hr
          dsimp only at hr
          cases hp : c.map.put p true k v with
          | error e => rw [hp] at hr; cases hr
          | ok m' => rw [hp, ok_bind] at hr; cases hr; exact Or.inl ⟨rfl, rfl⟩
        · rw [a, ok_bind] at hr
          dsimp only at hr
          cases hp : c.map.put p false k v with
          | error e => rw [hp] at hr; cases hr
          | ok m' => rw [hp, ok_bind] at hr; cases hr; exact Or.inl ⟨rfl, rfl⟩
        · rw [a, ok_bind] at hr
          dsimp only at hr
          rw [hgrow, ok_bind] at hr
          cases hr
          exact Or.inr ⟨rfl, rfl⟩
    · obtain ⟨⟨f', hsub, hi⟩, _⟩ := h2 ho
      have := (shows_exists hi x w).mp ⟨i, hs⟩
      exact (shows_exists h x w).mpr (hsub x w this)

/-- the twelfth key needs a larger table -/
example : ((Client.fresh exKeys (fun n => decide (n < 2))).run exKeys (fun n => decide (n < 2)) 64
      ((List.range 12).map fun i => .insert (100 * i + 1) i)).map (fun r => (r.1.getLast?, r.2.map.capacity, r.2.map.count)) =
    .ok (some (.inserted false), 16, 11) := by decide +kernel

/-- sixteen keys with hash 16, one with hash 31, six others: they fill 32 slots up to the limit -/
def lossEntries : List (Nat × Nat) :=
  ((List.range 16).map fun i => (1601 + i, i)) ++ [(3101, 16)] ++ (List.range 6).map fun i => (100 * (i + 1) + 1, 17 + i)

/-- only the first three pairs of arrays can be allocated -/
def lossMem : Nat → Bool := fun n => decide (n < 6)

/-- **C22** fails: 23 entries are stored; another insertion doubles the table, in which one of them finds no place, and the memory for
doubling it again is refused. The insertion reports failure and 22 of the entries are gone, although the count is still 23. -/
theorem C22_not_kept :
    ∃ (seen : List (Seen Nat Nat)) (c : Client Nat Nat) (r : Res Nat Nat),
      (Client.fresh exKeys lossMem).run exKeys lossMem 64 (lossEntries.map fun e => .insert e.1 e.2) = .ok (seen, c) ∧
      insert exKeys lossMem 64 c.map c.calls 4000 99 = .ok r ∧ r.ok = false ∧ r.map.count = 23 ∧
      (∀ e ∈ lossEntries, (c.map.find exKeys e.1 >>= readFound) = .ok (some e.2)) ∧
      (∀ e ∈ lossEntries, e.1 ≠ 1616 → (r.map.find exKeys e.1 >>= readFound) = .ok none) := by
  have key : (match (Client.fresh exKeys lossMem).run exKeys lossMem 64 (lossEntries.map fun e => .insert e.1 e.2) with
      | .ok (_, c) =>
        match insert exKeys lossMem 64 c.map c.calls 4000 99 with
        | .ok r => decide (r.ok = false ∧ r.map.count = 23 ∧
            (∀ e ∈ lossEntries, (c.map.find exKeys e.1 >>= readFound) = .ok (some e.2)) ∧
            (∀ e ∈ lossEntries, e.1 ≠ 1616 → (r.map.find exKeys e.1 >>= readFound) = .ok none))
        | .error _ => false
      | .error _ => false) = true := by decide +kernel
  split at key
  · rename_i seen c hrun
    split at key
    · rename_i r hr
      exact ⟨seen, c, r, hrun, hr, of_decide_eq_true key⟩
    · cases key
  · cases key

/-- **C20** fails: growing the same table loses entries. -/
theorem C20_not_kept :
    ∃ (seen : List (Seen Nat Nat)) (c : Client Nat Nat) (r : Res Nat Nat),
      (Client.fresh exKeys lossMem).run exKeys lossMem 64 (lossEntries.map fun e => .insert e.1 e.2) = .ok (seen, c) ∧
      grow exKeys lossMem (insertMove exKeys lossMem 64) c.map c.calls = .ok r ∧ r.ok = false ∧
      (c.map.find exKeys 1601 >>= readFound) = .ok (some 0) ∧ (r.map.find exKeys 1601 >>= readFound) = .ok none := by
  have key : (match (Client.fresh exKeys lossMem).run exKeys lossMem 64 (lossEntries.map fun e => .insert e.1 e.2) with
      | .ok (_, c) =>
        match grow exKeys lossMem (insertMove exKeys lossMem 64) c.map c.calls with
        | .ok r => decide (r.ok = false ∧
            (c.map.find exKeys 1601 >>= readFound) = .ok (some 0) ∧ (r.map.find exKeys 1601 >>= readFound) = .ok none)
        | .error _ => false
      | .error _ => false) = true := by decide +kernel
  split at key
  · rename_i seen c hrun
    split at key
    · rename_i r hr
      exact ⟨seen, c, r, hrun, hr, of_decide_eq_true key⟩
    · cases key
  · cases key

/-! ## C23 -/

theorem fnvMul_eq (h : U64) : (fnvMul h).toNat = h.toNat * 1099511628211 % 2 ^ 64 := by
  unfold fnvMul
  simp only [BitVec.toNat_add, BitVec.toNat_shiftLeft, Nat.shiftLeft_eq]
  omega

theorem fnvLoop_eq (bytes : List Byte) (h : U64) : (fnvLoop bytes h).toNat = fnv1a h.toNat bytes := by
  induction bytes generalizing h with
  | nil => rfl
  | cons b bs ih =>
    rw [fnvLoop, ih, fnvMul_eq]
    unfold fnv1a
    have hb : (b.zeroExtend 64).toNat = b.toNat := BitVec.toNat_setWidth_of_le (by omega)
    rw [List.foldl_cons, BitVec.toNat_xor, hb]

/-- **C23**: hashing bytes is 64-bit FNV-1a. -/
theorem C23_fnv1a (bytes rest : List Byte) : ∃ h, hashBytes (bytes ++ rest) bytes.length = .ok h ∧ h.toNat = fnv1a fnvOffset bytes := by
  unfold hashBytes hashCombine
  by_cases h0 : bytes.length = 0
  · rw [if_pos h0]
    rw [List.length_eq_zero_iff] at h0
    subst h0
    exact ⟨_, rfl, rfl⟩
  · rw [if_neg h0, if_pos (by simp), List.take_left]
    exact ⟨_, rfl, fnvLoop_eq _ _⟩

/-- "a" -/
example : hashBytes [0x61] 1 = .ok 0xaf63dc4c8601ec8c := by decide +kernel
/-- "foobar" -/
example : hashBytes [0x66, 0x6f, 0x6f, 0x62, 0x61, 0x72] 6 = .ok 0x85944171f73967e8 := by decide +kernel

theorem fnvLoop_append (a b : List Byte) (h : U64) : fnvLoop (a ++ b) h = fnvLoop b (fnvLoop a h) := by
  induction a generalizing h with
  | nil => rfl
  | cons x a ih => exact ih _

theorem hashCombine_eq (a rest : List Byte) (prev : U64) : hashCombine (a ++ rest) a.length prev = .ok (fnvLoop a prev) := by
  unfold hashCombine
  by_cases h0 : a.length = 0
  · rw [if_pos h0]
    rw [List.length_eq_zero_iff] at h0
    subst h0; rfl
  · rw [if_neg h0, if_pos (by simp), List.take_left]

/-- **C23**: hashing a concatenation is hashing the first part and combining the result with the second part. -/
theorem C23_concat (a b : List Byte) (prev : U64) :
    hashCombine (a ++ b) (a ++ b).length prev = (hashCombine a a.length prev >>= fun h => hashCombine b b.length h) := by
  have h1 := hashCombine_eq (a ++ b) [] prev
  have h2 := hashCombine_eq a [] prev
  rw [List.append_nil] at h1 h2
  rw [h1, h2, ok_bind, fnvLoop_append]
  have h3 := hashCombine_eq b [] (fnvLoop a prev)
  rw [List.append_nil] at h3
  exact h3.symm

example : hashBytes [0x66, 0x6f, 0x6f] 3 = .ok 0xdcb27518fed9d577 ∧ hashCombine [0x62, 0x61, 0x72] 3 0xdcb27518fed9d577 = .ok 0x85944171f73967e8 := by
  decide +kernel

/-- **C23**: the string functions hash the bytes before the terminator. -/
theorem C23_string (s rest : List Byte) (hs : ∀ b ∈ s, b ≠ 0) (prev : U64) :
    stringHashCombine (some (s ++ 0 :: rest)) prev = hashCombine s s.length prev := by
  have h1 := hashCombine_eq s [] prev
  rw [List.append_nil] at h1
  rw [h1]
  show strLoop (s ++ 0 :: rest) prev = _
  induction s generalizing prev with
  | nil => rfl
  | cons b s ih =>
    rw [List.cons_append, strLoop, if_neg (hs b List.mem_cons_self)]
    have h2 := hashCombine_eq s [] (fnvMul (prev ^^^ b.zeroExtend 64))
    rw [List.append_nil] at h2
    exact ih (fun x hx => hs x (List.mem_cons_of_mem _ hx)) _ h2

theorem C23_string_hash (s rest : List Byte) (hs : ∀ b ∈ s, b ≠ 0) : stringHash (some (s ++ 0 :: rest)) = hashBytes s s.length :=
  C23_string s rest hs _

example : stringHash (some [0x66, 0x6f, 0x6f, 0x62, 0x61, 0x72, 0, 7]) = .ok 0x85944171f73967e8 := by decide +kernel

/-! ## C61 -/

/-- **C61**: after any history, going through the indices below the capacity shows every entry exactly once. -/
theorem C61_iterate (ks : Keys K) (mem : Nat → Bool) {fuel : Nat} (hfuel : 64 ≤ fuel)
    (hnew : (Client.fresh ks mem : Client K V).map.hasData = true) (ops : List (Op K V)) (hops : ∀ op ∈ ops, op.Proper ks.tomb) :
    ∃ seen c, (Client.fresh ks mem).run ks mem fuel ops = .ok (seen, c) ∧
      (∀ k v, k ≠ ks.tomb → ((c.map.find ks k >>= readFound) = .ok (some v) ↔ ∃ i, i < c.map.capacity ∧ Shows ks c.map i k v)) ∧
      (∀ i j k v w, Shows ks c.map i k v → Shows ks c.map j k w → i = j) ∧
      (∀ i, c.map.get ks i = .ok none ∨ ∃ k v, k ≠ ks.tomb ∧ Shows ks c.map i k v) := by
  obtain ⟨h, hx⟩ := fresh_good ks mem hnew
  obtain ⟨seen, c, f, h1, h2, h3, h4, _⟩ := run_good mem hfuel ops _ _ h (Nat.le_of_eq hx.symm) hops
  refine ⟨seen, c, h1, ?_, ?_, ?_⟩
  · intro k v hk
    rw [h3.find h4 hk]
    constructor
    · intro e
      obtain ⟨i, hi⟩ := (shows_exists h3 k v).mpr (by injection e)
      exact ⟨i, (List.getElem?_eq_some_iff.mp ((shows_iff h3 i k v).mp hi).1).1, hi⟩
    · rintro ⟨i, _, hi⟩
      rw [(shows_exists h3 k v).mp ⟨i, hi⟩]
  · intro i j k v w hi hj
    obtain ⟨a, b, _⟩ := (shows_iff h3 i k v).mp hi
    obtain ⟨a', _, _⟩ := (shows_iff h3 j k w).mp hj
    exact h3.uniq i j k a a' b
  · intro i
    rcases h3.get i with ⟨k, v, hg, _, hk, _⟩ | ⟨hg, _⟩
    · exact Or.inr ⟨k, v, hk, hg⟩
    · exact Or.inl hg

/-- **C61**: `remove_index` removes exactly the entry shown at the index, and reports whether there was one. -/
theorem C61_remove_index (ks : Keys K) (mem : Nat → Bool) {fuel : Nat} (hfuel : 64 ≤ fuel)
    (hnew : (Client.fresh ks mem : Client K V).map.hasData = true) (ops : List (Op K V)) (hops : ∀ op ∈ ops, op.Proper ks.tomb)
    (i : Nat) :
    ∃ seen c, (Client.fresh ks mem).run ks mem fuel ops = .ok (seen, c) ∧
      (∀ k v, Shows ks c.map i k v → ∃ m, c.map.removeIndex ks i = .ok (true, m) ∧ m.count + 1 = c.map.count ∧
        (∀ x w, x ≠ ks.tomb → ((m.find ks x >>= readFound) = .ok (some w) ↔
          x ≠ k ∧ (c.map.find ks x >>= readFound) = .ok (some w)))) ∧
      (c.map.get ks i = .ok none → 0 < c.map.count → c.map.removeIndex ks i = .ok (false, c.map)) := by
  obtain ⟨h, hx⟩ := fresh_good ks mem hnew
  obtain ⟨seen, c, f, h1, h2, h3, h4, _⟩ := run_good mem hfuel ops _ _ h (Nat.le_of_eq hx.symm) hops
  refine ⟨seen, c, h1, ?_, ?_⟩
  · intro k v hs
    obtain ⟨hkey, hk, hf⟩ := (shows_iff h3 i k v).mp hs
    have h0 : 0 < c.map.count := Nat.lt_of_lt_of_le (pos_of_used hkey hk) h4
    rcases h3.removeIndex h0 i with ⟨k', m', hr, hkey', hk', g1, g2, _⟩ | ⟨_, hn⟩
    · rw [hkey] at hkey'
      cases hkey'
      refine ⟨m', hr, ?_, ?_⟩
      · have hlt := (List.getElem?_eq_some_iff.mp hkey).1
        unfold Map.removeIndex at hr
        rw [assert_t (by simpa using h0), ok_bind, if_pos hlt, rd_some hkey, ok_bind, if_neg hk] at hr
        unfold Map.clearSlot at hr
        rw [wr_lt _ hlt, ok_bind, wr_lt _ (by rw [h3.vals]; exact hlt), ok_bind, if_neg (by omega)] at hr
        cases hr
        show c.map.count - 1 + 1 = c.map.count
        omega
      · intro x w hx
        rw [g1.find (g2 h4) hx, h3.find h4 hx]
        unfold Contents.set
        by_cases e : x = k
        · rw [if_pos e]; simp [e]
        · rw [if_neg e]; simp [e]
    · exact absurd (hn k hkey) hk
  · intro hg h0
    rcases h3.removeIndex h0 i with ⟨k', m', _, hkey', hk', _⟩ | ⟨hr, _⟩
    · rcases h3.get i with ⟨k, v, hg', _⟩ | ⟨_, hn⟩
      · rw [hg] at hg'; cases hg'
      · exact absurd (hn k' hkey') hk'
    · exact hr

example : (do
      let r ← (Client.fresh exKeys exMem).run exKeys exMem 64 [.insert 501 'a', .insert 502 'b']
      let x ← r.2.map.get exKeys 5
      let y ← r.2.map.get exKeys 6
      let z ← r.2.map.get exKeys 7
      let w ← r.2.map.removeIndex exKeys 5
      return (x, y, z, w.1)) = (.ok (some (501, some 'a'), some (502, some 'b'), none, true) : C (Option (Nat × Option Char) × Option (Nat × Option Char) × Option (Nat × Option Char) × Bool)) := by
  rfl

end Tm.Hash
