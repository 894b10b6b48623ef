import Verif.Hash.Spec
import Mathlib.Data.Nat.Bitwise
namespace Tm.Hash

variable {K V : Type} [DecidableEq K]

theorem assert_t {b : Bool} (h : b = true) : assert b = .ok () := by rw [h]; rfl

theorem rd_some {α : Type} {b : List α} {i : Nat} {v : α} (h : b[i]? = some v) : rd b i = .ok v := by unfold rd; rw [h]

theorem wr_lt {α : Type} {b : List α} {i : Nat} (v : α) (h : i < b.length) : wr b i v = .ok (b.set i v) := by
  unfold wr; rw [if_pos h]

theorem isPow2_two_pow (e : Nat) (he : e ≤ 62) : isPow2 (BitVec.ofNat 64 (2 ^ e)) = true := by
  unfold isPow2
  rw [beq_iff_eq]
  have hlt : 2 ^ e < 2 ^ 64 := Nat.pow_lt_pow_right (by omega) (by omega)
  have hpos := Nat.two_pow_pos e
  apply BitVec.eq_of_toNat_eq
  have h1 : (BitVec.ofNat 64 (2 ^ e) - 1).toNat = 2 ^ e - 1 := by
    have : (BitVec.ofNat 64 (2 ^ e)).toNat = 2 ^ e := by rw [BitVec.toNat_ofNat, Nat.mod_eq_of_lt hlt]
    bv_omega
  rw [BitVec.toNat_and, h1, BitVec.toNat_ofNat, Nat.mod_eq_of_lt hlt, Nat.and_two_pow_sub_one_eq_mod]
  simp

/-- The number of slots in use. -/
def used (ks : Keys K) (keys : List K) : Nat := keys.countP (fun k => decide (k ≠ ks.tomb))

/-- The map stores exactly the entries `f`. -/
structure Inv (ks : Keys K) (m : Map K V) (f : Contents K V) : Prop where
  data : m.hasData = true
  size : ∃ e, 4 ≤ e ∧ e ≤ 62 ∧ m.keys.length = 2 ^ e
  vals : m.vals.length = m.keys.length
  place : ∀ (p : Nat) (k : K), m.keys[p]? = some k → k ≠ ks.tomb → ∃ i, i < maxProbe ∧ p = m.probeIndex ks k i
  uniq : ∀ (p q : Nat) (k : K), m.keys[p]? = some k → m.keys[q]? = some k → k ≠ ks.tomb → p = q
  value : ∀ (p : Nat) (k : K), m.keys[p]? = some k → k ≠ ks.tomb → ∃ v, m.vals[p]? = some (some v) ∧ f k = some v
  only : ∀ (k : K) (v : V), f k = some v → k ≠ ks.tomb ∧ ∃ p : Nat, m.keys[p]? = some k
  high : m.count ≤ m.keys.length

/-- The count is not less than the number of slots in use. -/
def Low (ks : Keys K) (m : Map K V) : Prop := used ks m.keys ≤ m.count

/-- The count is right. -/
def Exact (ks : Keys K) (m : Map K V) : Prop := m.count = used ks m.keys

variable {ks : Keys K} {m : Map K V} {f : Contents K V}

omit [DecidableEq K] in
theorem Inv.pos (h : Inv ks m f) : 0 < m.keys.length := by
  obtain ⟨e, _, _, he⟩ := h.size; rw [he]; exact Nat.two_pow_pos e

omit [DecidableEq K] in
theorem Inv.cap_le (h : Inv ks m f) : m.keys.length ≤ 2 ^ 62 := by
  obtain ⟨e, _, h2, he⟩ := h.size; rw [he]; exact Nat.pow_le_pow_right (by omega) h2

omit [DecidableEq K] in
theorem Inv.check (h : Inv ks m f) : m.check = .ok () := by
  obtain ⟨e, _, h2, he⟩ := h.size
  unfold Map.check
  rw [assert_t h.data, ok_bind, assert_t (by simpa using h.pos), ok_bind, assert_t (by rw [he]; exact isPow2_two_pow e h2), ok_bind,
    assert_t (by simpa using h.high)]

omit [DecidableEq K] in
theorem probeIndex_lt (ks : Keys K) {m : Map K V} (h0 : 0 < m.keys.length) (hm : m.keys.length ≤ 2 ^ 62) (key : K) (i : Nat) :
    m.probeIndex ks key i < m.keys.length := by
  unfold Map.probeIndex
  dsimp only
  rw [BitVec.toNat_and]
  refine Nat.lt_of_le_of_lt Nat.and_le_right ?_
  rw [BitVec.toNat_ofNat]
  omega

omit [DecidableEq K] in
theorem probeIndex_congr {m m' : Map K V} (h : m'.keys.length = m.keys.length) (ks : Keys K) (key : K) (i : Nat) :
    m'.probeIndex ks key i = m.probeIndex ks key i := by unfold Map.probeIndex; rw [h]

omit [DecidableEq K] in
theorem Inv.probeIndex_lt (h : Inv ks m f) (key : K) (i : Nat) : m.probeIndex ks key i < m.keys.length :=
  Hash.probeIndex_lt ks h.pos h.cap_le key i

omit [DecidableEq K] in
theorem Inv.cell (h : Inv ks m f) (key : K) (i : Nat) : ∃ k, m.keys[m.probeIndex ks key i]? = some k :=
  ⟨_, List.getElem?_eq_getElem (h.probeIndex_lt key i)⟩

/-- What the search for a place finds. -/
theorem Inv.probe (h : Inv ks m f) {key : K} (hk : key ≠ ks.tomb) (left i : Nat) (found : Option Nat) :
    (∃ p j, m.probe ks key left i found = .ok (some (p, true)) ∧ i ≤ j ∧ j < i + left ∧ p = m.probeIndex ks key j ∧
      m.keys[p]? = some key) ∨
    (∃ p, m.probe ks key left i found = .ok (some (p, false)) ∧
      (∀ j, i ≤ j → j < i + left → m.keys[m.probeIndex ks key j]? ≠ some key) ∧
      (found = some p ∨ ∃ j, i ≤ j ∧ j < i + left ∧ p = m.probeIndex ks key j ∧ m.keys[p]? = some ks.tomb)) ∨
    (m.probe ks key left i found = .ok none ∧ found = none ∧
      ∀ j, i ≤ j → j < i + left → ∃ k, m.keys[m.probeIndex ks key j]? = some k ∧ k ≠ key ∧ k ≠ ks.tomb) := by
  induction left generalizing i found with
  | zero =>
    cases found with
    | none => exact Or.inr (Or.inr ⟨rfl, rfl, fun j _ _ => by omega⟩)
    | some p => exact Or.inr (Or.inl ⟨p, rfl, fun j _ _ => by omega, Or.inl rfl⟩)
  | succ left ih =>
    obtain ⟨k, hc⟩ := h.cell key i
    rw [Map.probe, rd_some hc, ok_bind]
    have split : ∀ j, i ≤ j → j < i + (left + 1) → j = i ∨ (i + 1 ≤ j ∧ j < i + 1 + left) := by omega
    by_cases ht : found.isNone = true ∧ k = ks.tomb
    · rw [if_pos ht]
      obtain ⟨hn, rfl⟩ := ht
      rcases ih (i + 1) (some (m.probeIndex ks key i)) with ⟨p, j, a, b, c, d, e⟩ | ⟨p, a, b, c⟩ | ⟨_, b, _⟩
      · exact Or.inl ⟨p, j, a, by omega, by omega, d, e⟩
      · refine Or.inr (Or.inl ⟨p, a, ?_, ?_⟩)
        · intro j h1 h2
          rcases split j h1 h2 with rfl | ⟨h3, h4⟩
          · rw [hc]; intro e; cases e; exact hk rfl
          · exact b j h3 h4
        · rcases c with c | ⟨j, c1, c2, c3, c4⟩
          · cases c
            exact Or.inr ⟨i, Nat.le_refl _, by omega, rfl, hc⟩
          · exact Or.inr ⟨j, by omega, by omega, c3, c4⟩
      · cases b
    · rw [if_neg ht]
      by_cases he : k = key
      · subst he
        rw [if_pos rfl]
        exact Or.inl ⟨_, i, rfl, Nat.le_refl _, by omega, rfl, hc⟩
      · rw [if_neg he]
        rcases ih (i + 1) found with ⟨p, j, a, b, c, d, e⟩ | ⟨p, a, b, c⟩ | ⟨a, b, c⟩
        · exact Or.inl ⟨p, j, a, by omega, by omega, d, e⟩
        · refine Or.inr (Or.inl ⟨p, a, ?_, ?_⟩)
          · intro j h1 h2
            rcases split j h1 h2 with rfl | ⟨h3, h4⟩
            · rw [hc]; intro e; cases e; exact he rfl
            · exact b j h3 h4
          · rcases c with c | ⟨j, c1, c2, c3, c4⟩
            · exact Or.inl c
            · exact Or.inr ⟨j, by omega, by omega, c3, c4⟩
        · refine Or.inr (Or.inr ⟨a, b, ?_⟩)
          intro j h1 h2
          rcases split j h1 h2 with rfl | ⟨h3, h4⟩
          · refine ⟨k, hc, he, fun e => ht ⟨?_, e⟩⟩
            rw [b]; rfl
          · exact c j h3 h4

/-- Overwriting the value of a key. -/
theorem Inv.put_existing (h : Inv ks m f) {key : K} (hk : key ≠ ks.tomb) {p : Nat} (hp : m.keys[p]? = some key) (v : V) :
    ∃ m', m.put p true key v = .ok m' ∧ Inv ks m' (f.set key (some v)) ∧ m'.keys = m.keys ∧ m'.count = m.count := by
  have hlt := (List.getElem?_eq_some_iff.mp hp).1
  have hkeys : m.keys.set p key = m.keys := by
    obtain ⟨h1, h2⟩ := List.getElem?_eq_some_iff.mp hp
    rw [← h2]; exact List.set_getElem_self _
  refine ⟨⟨m.hasData, m.keys, m.vals.set p (some v), m.count⟩, ?_, ?_, rfl, rfl⟩
  · unfold Map.put
    rw [wr_lt _ hlt, ok_bind, wr_lt _ (by rw [h.vals]; exact hlt), ok_bind, hkeys]
    rfl
  · refine ⟨h.data, h.size, by simpa using h.vals, h.place, h.uniq, ?_, ?_, h.high⟩
    · intro q k hq hkt
      obtain ⟨w, hw1, hw2⟩ := h.value q k hq hkt
      by_cases hqp : q = p
      · subst hqp
        have : m.keys[q]? = some k := hq
        rw [hp] at this
        cases this
        exact ⟨v, List.getElem?_set_self (by rw [h.vals]; exact hlt), by simp [Contents.set]⟩
      · refine ⟨w, ?_, ?_⟩
        · show (m.vals.set p (some v))[q]? = _
          rw [List.getElem?_set_ne (Ne.symm hqp)]; exact hw1
        · unfold Contents.set
          rw [if_neg]
          · exact hw2
          · rintro rfl; exact hqp (h.uniq q p k hq hp hkt)
    · intro k w hkw
      unfold Contents.set at hkw
      split at hkw
      · rename_i e; subst e; exact ⟨hk, p, hp⟩
      · exact h.only k w hkw

theorem used_set {keys : List K} {p : Nat} {key : K} (hp : keys[p]? = some ks.tomb) (hk : key ≠ ks.tomb) :
    used ks (keys.set p key) = used ks keys + 1 := by
  unfold used
  induction keys generalizing p with
  | nil => simp at hp
  | cons x t ih =>
    cases p with
    | zero =>
      simp at hp; subst hp
      simp [hk]
    | succ p =>
      rw [List.getElem?_cons_succ] at hp
      rw [List.set_cons_succ, List.countP_cons, List.countP_cons, ih hp]
      omega

theorem used_clear {keys : List K} {p : Nat} {key : K} (hp : keys[p]? = some key) (hk : key ≠ ks.tomb) :
    used ks (keys.set p ks.tomb) + 1 = used ks keys := by
  unfold used
  induction keys generalizing p with
  | nil => simp at hp
  | cons x t ih =>
    cases p with
    | zero =>
      simp at hp; subst hp
      simp [hk]
    | succ p =>
      rw [List.getElem?_cons_succ] at hp
      rw [List.set_cons_succ, List.countP_cons, List.countP_cons, ← ih hp]
      omega

omit [DecidableEq K] in
/-- A key that is not in its window is not in the map. -/
theorem Inv.absent (h : Inv ks m f) {key : K} (hk : key ≠ ks.tomb)
    (ha : ∀ j, j < maxProbe → m.keys[m.probeIndex ks key j]? ≠ some key) : ∀ p : Nat, m.keys[p]? ≠ some key := by
  intro p hp
  obtain ⟨i, hi, rfl⟩ := h.place p key hp hk
  exact ha i hi hp

/-- Storing a new key in a free slot of its window. -/
theorem Inv.put_new (h : Inv ks m f) {key : K} (hk : key ≠ ks.tomb) {p i : Nat} (hi : i < maxProbe)
    (hp : p = m.probeIndex ks key i) (ht : m.keys[p]? = some ks.tomb) (ha : ∀ q : Nat, m.keys[q]? ≠ some key)
    (hroom : m.count + 1 ≤ m.keys.length) (v : V) :
    ∃ m', m.put p false key v = .ok m' ∧ Inv ks m' (f.set key (some v)) ∧ m'.keys.length = m.keys.length ∧
      (Exact ks m → Exact ks m') ∧ (Low ks m → Low ks m') := by
  have hlt := (List.getElem?_eq_some_iff.mp ht).1
  refine ⟨⟨m.hasData, m.keys.set p key, m.vals.set p (some v), m.count + 1⟩, ?_, ?_, by simp, ?_, ?_⟩
  · unfold Map.put
    rw [wr_lt _ hlt, ok_bind, wr_lt _ (by rw [h.vals]; exact hlt), ok_bind]
    rfl
  · have hself : (m.keys.set p key)[p]? = some key := List.getElem?_set_self hlt
    have hoth : ∀ q, q ≠ p → (m.keys.set p key)[q]? = m.keys[q]? := fun q hq => List.getElem?_set_ne (Ne.symm hq)
    have hpi : ∀ k j, (⟨m.hasData, m.keys.set p key, m.vals.set p (some v), m.count + 1⟩ : Map K V).probeIndex ks k j =
        m.probeIndex ks k j := fun k j => probeIndex_congr (by simp) ks k j
    have hne : ∀ (q : Nat) (k : K), q ≠ p → (m.keys.set p key)[q]? = some k → k ≠ key := by
      rintro q k hq hqk rfl
      rw [hoth q hq] at hqk
      exact ha q hqk
    refine ⟨h.data, ?_, ?_, ?_, ?_, ?_, ?_, ?_⟩
    · obtain ⟨e, h1, h2, h3⟩ := h.size
      exact ⟨e, h1, h2, by simpa using h3⟩
    · simpa using h.vals
    · intro q k hq hkt
      by_cases hqp : q = p
      · subst hqp
        have : (m.keys.set q key)[q]? = some k := hq
        rw [hself] at this
        cases this
        exact ⟨i, hi, by rw [hpi]; exact hp⟩
      · have hq' : m.keys[q]? = some k := by rw [← hoth q hqp]; exact hq
        obtain ⟨j, hj, e⟩ := h.place q k hq' hkt
        exact ⟨j, hj, by rw [hpi]; exact e⟩
    · intro q r k hq hr hkt
      have hq : (m.keys.set p key)[q]? = some k := hq
      have hr : (m.keys.set p key)[r]? = some k := hr
      by_cases hqp : q = p
      · by_cases hrp : r = p
        · rw [hqp, hrp]
        · rw [hqp, hself] at hq
          cases hq
          exact absurd rfl (hne r _ hrp hr)
      · by_cases hrp : r = p
        · rw [hrp, hself] at hr
          cases hr
          exact absurd rfl (hne q _ hqp hq)
        · rw [hoth q hqp] at hq
          rw [hoth r hrp] at hr
          exact h.uniq q r k hq hr hkt
    · intro q k hq hkt
      have hq : (m.keys.set p key)[q]? = some k := hq
      by_cases hqp : q = p
      · rw [hqp, hself] at hq
        cases hq
        exact ⟨v, by rw [hqp]; exact List.getElem?_set_self (by rw [h.vals]; exact hlt), by simp [Contents.set]⟩
      · have hkk := hne q k hqp hq
        rw [hoth q hqp] at hq
        obtain ⟨w, hw1, hw2⟩ := h.value q k hq hkt
        refine ⟨w, ?_, ?_⟩
        · show (m.vals.set p (some v))[q]? = _
          rw [List.getElem?_set_ne (Ne.symm hqp)]; exact hw1
        · unfold Contents.set; rw [if_neg hkk]; exact hw2
    · intro k w hkw
      unfold Contents.set at hkw
      split at hkw
      · rename_i e; subst e; exact ⟨hk, p, hself⟩
      · obtain ⟨hkt, q, hq⟩ := h.only k w hkw
        refine ⟨hkt, q, ?_⟩
        show (m.keys.set p key)[q]? = _
        rw [hoth q]
        · exact hq
        · rintro rfl; rw [ht] at hq; cases hq; exact hkt rfl
    · show m.count + 1 ≤ (m.keys.set p key).length
      rw [List.length_set]; exact hroom
  · intro he
    show m.count + 1 = used ks (m.keys.set p key)
    rw [used_set ht hk, ← he]
  · intro hl
    show used ks (m.keys.set p key) ≤ m.count + 1
    rw [used_set ht hk]; unfold Low at hl; omega

/-- Emptying a slot. -/
theorem Inv.clear (h : Inv ks m f) {key : K} (hk : key ≠ ks.tomb) {p : Nat} (hp : m.keys[p]? = some key)
    {vals : List (Option V)} (hvl : vals.length = m.vals.length) (hv : ∀ q, q ≠ p → vals[q]? = m.vals[q]?) {count : Nat}
    (hc2 : count ≤ m.keys.length) :
    Inv ks ⟨m.hasData, m.keys.set p ks.tomb, vals, count⟩ (f.set key none) := by
  have hlt := (List.getElem?_eq_some_iff.mp hp).1
  have hself : (m.keys.set p ks.tomb)[p]? = some ks.tomb := List.getElem?_set_self hlt
  have hoth : ∀ q, q ≠ p → (m.keys.set p ks.tomb)[q]? = m.keys[q]? := fun q hq => List.getElem?_set_ne (Ne.symm hq)
  have hpi : ∀ k j, (⟨m.hasData, m.keys.set p ks.tomb, vals, count⟩ : Map K V).probeIndex ks k j =
      m.probeIndex ks k j := fun k j => probeIndex_congr (by simp) ks k j
  have hin : ∀ (q : Nat) (k : K), (m.keys.set p ks.tomb)[q]? = some k → k ≠ ks.tomb → q ≠ p ∧ m.keys[q]? = some k := by
    intro q k hq hkt
    have hqp : q ≠ p := by rintro rfl; rw [hself] at hq; cases hq; exact hkt rfl
    exact ⟨hqp, by rw [← hoth q hqp]; exact hq⟩
  refine ⟨h.data, ?_, ?_, ?_, ?_, ?_, ?_, ?_⟩
  · obtain ⟨e, h1, h2, h3⟩ := h.size
    exact ⟨e, h1, h2, by simpa using h3⟩
  · show vals.length = (m.keys.set p ks.tomb).length
    rw [List.length_set, hvl]; exact h.vals
  · intro q k hq hkt
    obtain ⟨_, hq'⟩ := hin q k hq hkt
    obtain ⟨j, hj, e⟩ := h.place q k hq' hkt
    exact ⟨j, hj, by rw [hpi]; exact e⟩
  · intro q r k hq hr hkt
    exact h.uniq q r k (hin q k hq hkt).2 (hin r k hr hkt).2 hkt
  · intro q k hq hkt
    obtain ⟨hqp, hq'⟩ := hin q k hq hkt
    obtain ⟨w, hw1, hw2⟩ := h.value q k hq' hkt
    refine ⟨w, by rw [← hw1]; exact hv q hqp, ?_⟩
    unfold Contents.set
    rw [if_neg]
    · exact hw2
    · rintro rfl; exact hqp (h.uniq q p k hq' hp hkt)
  · intro k w hkw
    unfold Contents.set at hkw
    split at hkw
    · cases hkw
    · rename_i hkk
      obtain ⟨hkt, q, hq⟩ := h.only k w hkw
      refine ⟨hkt, q, ?_⟩
      show (m.keys.set p ks.tomb)[q]? = _
      rw [hoth q]
      · exact hq
      · rintro rfl; rw [hp] at hq; cases hq; exact hkk rfl
  · show count ≤ (m.keys.set p ks.tomb).length
    rw [List.length_set]; exact hc2

/-- What the lookup loop finds. -/
theorem Inv.findLoop (h : Inv ks m f) {key : K} (left i : Nat) :
    (∃ p j, m.findLoop ks key left i = .ok (some p) ∧ i ≤ j ∧ j < i + left ∧ p = m.probeIndex ks key j ∧ m.keys[p]? = some key) ∨
    (m.findLoop ks key left i = .ok none ∧ ∀ j, i ≤ j → j < i + left → m.keys[m.probeIndex ks key j]? ≠ some key) := by
  induction left generalizing i with
  | zero => exact Or.inr ⟨rfl, fun j _ _ => by omega⟩
  | succ left ih =>
    obtain ⟨k, hc⟩ := h.cell key i
    rw [Map.findLoop, rd_some hc, ok_bind]
    by_cases he : k = key
    · subst he
      rw [if_pos rfl]
      exact Or.inl ⟨_, i, rfl, Nat.le_refl _, by omega, rfl, hc⟩
    · rw [if_neg he]
      rcases ih (i + 1) with ⟨p, j, a, b, c, d, e⟩ | ⟨a, b⟩
      · exact Or.inl ⟨p, j, a, by omega, by omega, d, e⟩
      · refine Or.inr ⟨a, fun j h1 h2 => ?_⟩
        by_cases hj : j = i
        · subst hj; rw [hc]; intro e; cases e; exact he rfl
        · exact b j (by omega) (by omega)

theorem used_zero {keys : List K} (h : used ks keys = 0) {p : Nat} {k : K} (hp : keys[p]? = some k) : k = ks.tomb := by
  unfold used at h
  rw [List.countP_eq_zero] at h
  have := h k (List.mem_of_getElem? hp)
  simpa using this

/-- `find_index` finds the place of a key, if it is in the map. -/
theorem Inv.findIndex (h : Inv ks m f) (hl : Low ks m) {key : K} (hk : key ≠ ks.tomb) :
    (∃ p, m.findIndex ks key = .ok (some p) ∧ m.keys[p]? = some key) ∨ (m.findIndex ks key = .ok none ∧ f key = none) := by
  unfold Map.findIndex
  rw [h.check, ok_bind]
  have habs : (∀ p : Nat, m.keys[p]? ≠ some key) → f key = none := by
    intro ha
    cases hf : f key with
    | none => rfl
    | some v => obtain ⟨_, p, hp⟩ := h.only key v hf; exact absurd hp (ha p)
  by_cases h0 : m.count = 0
  · rw [if_pos h0]
    refine Or.inr ⟨rfl, habs fun p hp => hk ?_⟩
    exact used_zero (by unfold Low at hl; omega) hp
  · rw [if_neg h0]
    rcases h.findLoop (key := key) maxProbe 0 with ⟨p, j, a, _, _, _, e⟩ | ⟨a, b⟩
    · exact Or.inl ⟨p, a, e⟩
    · exact Or.inr ⟨a, habs (h.absent hk fun j hj => b j (Nat.zero_le _) (by omega))⟩

end Tm.Hash
