import Verif.Str.CodecLemmas

namespace Tm.Str

open Tm.Num

variable {chars : List Byte} {α : Nat → Byte}

/-- Writing the bytes of the last group. -/
def b64DecOut (v0 v1 v2 v3 pc : Nat) (out : List Byte) (oi : Nat) : C (Nat × List Byte) := do
  let out ← putGuarded out oi (b64Byte0 v0 v1)
  let oi := oi + 1
  let (out, oi) ←
    if pc < 2 then do
      let out ← putGuarded out oi (b64Byte1 v1 v2)
      .ok (out, oi + 1)
    else (.ok (out, oi) : C (List Byte × Nat))
  let (out, oi) ←
    if pc < 1 then do
      let out ← putGuarded out oi (b64Byte2 v2 v3)
      .ok (out, oi + 1)
    else (.ok (out, oi) : C (List Byte × Nat))
  .ok (oi, out)

def lastBytes (v0 v1 v2 v3 pc : Nat) : List Byte :=
  [b64Byte0 v0 v1] ++ (if pc < 2 then [b64Byte1 v1 v2] else []) ++ (if pc < 1 then [b64Byte2 v2 v3] else [])

theorem b64DecTail_none {ep : Bool} {cs out : List Byte} {oi : Nat} (h : b64DecLast chars ep cs = .ok none) :
    b64DecTail chars ep cs out oi = .ok (0, out) := by rw [b64DecTail, h]; rfl

theorem b64DecTail_some {ep : Bool} {cs out : List Byte} {oi v0 v1 v2 v3 pc : Nat}
    (h : b64DecLast chars ep cs = .ok (some (v0, v1, v2, v3, pc))) :
    b64DecTail chars ep cs out oi = b64DecOut v0 v1 v2 v3 pc out oi := by rw [b64DecTail, h]; rfl

theorem b64DecOut_full (v0 v1 v2 v3 pc : Nat) (out : List Byte) (oi : Nat)
    (h : oi + (lastBytes v0 v1 v2 v3 pc).length < out.length) :
    b64DecOut v0 v1 v2 v3 pc out oi = .ok (oi + (lastBytes v0 v1 v2 v3 pc).length, splice out oi (lastBytes v0 v1 v2 v3 pc)) := by
  have h1 : oi + 1 < out.length := by
    simp only [lastBytes, List.length_append, List.length_cons, List.length_nil] at h; omega
  rw [b64DecOut, putGuarded_one _ _ _ h1, ok_bind]
  by_cases h2 : pc < 2
  · by_cases h3 : pc < 1
    · simp only [lastBytes, if_pos h2, if_pos h3, List.length_append, List.length_cons, List.length_nil] at h ⊢
      rw [putGuarded_snoc _ _ _ _ _ (by simp) (by omega)]
      simp only [ok_bind]
      rw [putGuarded_snoc _ _ _ _ _ (by simp) (by omega)]
      rfl
    · simp only [lastBytes, if_pos h2, if_neg h3, List.length_append, List.length_cons, List.length_nil] at h ⊢
      rw [putGuarded_snoc _ _ _ _ _ (by simp) (by omega)]
      simp only [ok_bind, List.append_nil]
  · have h3 : ¬ pc < 1 := by omega
    simp only [lastBytes, if_neg h2, if_neg h3, ok_bind, List.append_nil]
    rfl

theorem b64DecOut_len (v0 v1 v2 v3 pc : Nat) (out : List Byte) (oi : Nat) :
    ∃ o, o.length = out.length ∧ b64DecOut v0 v1 v2 v3 pc out oi = .ok (oi + (lastBytes v0 v1 v2 v3 pc).length, o) := by
  rw [b64DecOut]
  obtain ⟨o1, e1, l1⟩ := putGuarded_len out oi (b64Byte0 v0 v1)
  rw [e1, ok_bind]
  obtain ⟨o2, e2, l2⟩ := putGuarded_len o1 (oi + 1) (b64Byte1 v1 v2)
  obtain ⟨o3, e3, l3⟩ := putGuarded_len o2 (oi + 1 + 1) (b64Byte2 v2 v3)
  by_cases h2 : pc < 2
  · by_cases h3 : pc < 1
    · simp only [lastBytes, if_pos h2, if_pos h3, e2, e3, ok_bind]
      exact ⟨o3, by omega, rfl⟩
    · simp only [lastBytes, if_pos h2, if_neg h3, e2, ok_bind]
      exact ⟨o2, by omega, rfl⟩
  · have h3 : ¬ pc < 1 := by omega
    simp only [lastBytes, if_neg h2, if_neg h3, ok_bind]
    exact ⟨o1, l1, rfl⟩

/-! ### Decoding an encoded text -/

theorem loop_four {ep : Bool} (c0 c1 c2 c3 : Byte) (out : List Byte) (oi : Nat) :
    b64DecLoop chars ep [c0, c1, c2, c3] out oi = b64DecTail chars ep [c0, c1, c2, c3] out oi := rfl

theorem group_bytes {x y z : Nat} (hx : x < 256) (hy : y < 256) (hz : z < 256) :
    b64Byte0 (x / 4) (x % 4 * 16 + y / 16) = BitVec.ofNat 8 x ∧
    b64Byte1 (x % 4 * 16 + y / 16) (y % 16 * 4 + z / 64) = BitVec.ofNat 8 y ∧
    b64Byte2 (y % 16 * 4 + z / 64) (z % 64) = BitVec.ofNat 8 z := by
  refine ⟨?_, ?_, ?_⟩
  · rw [byte0_eq (by omega)]; congr 1; omega
  · rw [byte1_eq (by omega)]; congr 1; omega
  · rw [byte2_eq (by omega)]; congr 1; omega

theorem sextets_eq {x y z : Nat} (hx : x < 256) (hy : y < 256) (hz : z < 256) :
    sextets (x * 65536 + y * 256 + z) = [x / 4, x % 4 * 16 + y / 16, y % 16 * 4 + z / 64, z % 64] := by
  have e0 : (x * 65536 + y * 256 + z) / 2 ^ 18 % 64 = x / 4 := by omega
  have e1 : (x * 65536 + y * 256 + z) / 2 ^ 12 % 64 = x % 4 * 16 + y / 16 := by omega
  have e2 : (x * 65536 + y * 256 + z) / 2 ^ 6 % 64 = y % 16 * 4 + z / 64 := by omega
  have e3 : (x * 65536 + y * 256 + z) % 64 = z % 64 := by omega
  rw [sextets, e0, e1, e2, e3]

theorem ofNat8_toNat (x : Byte) : BitVec.ofNat 8 x.toNat = x := by simp

theorem last_full (ht : Table chars α) (ep : Bool) {a b c d : Nat} (ha : a < 64) (hb : b < 64) (hc : c < 64) (hd : d < 64) :
    b64DecLast chars ep [α a, α b, α c, α d] = .ok (some (a, b, c, d, 0)) := by
  have na : ¬ a ≥ 64 := by omega
  have nb : ¬ b ≥ 64 := by omega
  have nc : ¬ c ≥ 64 := by omega
  have nd : ¬ d ≥ 64 := by omega
  cases ep <;> simp [b64DecLast, b64ValueOr, ht.val _ ha, ht.val _ hb, ht.val _ hc, ht.val _ hd, na, nb, nc, nd]

theorem last_two_pad (ht : Table chars α) {a b c : Nat} (ha : a < 64) (hb : b < 64) (hc : c < 64) :
    b64DecLast chars true [α a, α b, α c, 61] = .ok (some (a, b, c, 0, 1)) := by
  have na : ¬ a ≥ 64 := by omega
  have nb : ¬ b ≥ 64 := by omega
  have nc : ¬ c ≥ 64 := by omega
  have : b64Value chars 61#8 = .ok 64 := ht.pad
  simp [b64DecLast, b64ValueOr, ht.val _ ha, ht.val _ hb, ht.val _ hc, this, na, nb, nc]

theorem last_one_pad (ht : Table chars α) {a b : Nat} (ha : a < 64) (hb : b < 64) :
    b64DecLast chars true [α a, α b, 61, 61] = .ok (some (a, b, 0, 0, 2)) := by
  have na : ¬ a ≥ 64 := by omega
  have nb : ¬ b ≥ 64 := by omega
  have : b64Value chars 61#8 = .ok 64 := ht.pad
  simp [b64DecLast, b64ValueOr, ht.val _ ha, ht.val _ hb, this, na, nb]

theorem last_two (ht : Table chars α) {a b c : Nat} (ha : a < 64) (hb : b < 64) (hc : c < 64) :
    b64DecLast chars false [α a, α b, α c] = .ok (some (a, b, c, 0, 1)) := by
  have na : ¬ a ≥ 64 := by omega
  have nb : ¬ b ≥ 64 := by omega
  have nc : ¬ c ≥ 64 := by omega
  simp [b64DecLast, b64ValueOr, ht.val _ ha, ht.val _ hb, ht.val _ hc, na, nb, nc]

theorem last_one (ht : Table chars α) {a b : Nat} (ha : a < 64) (hb : b < 64) :
    b64DecLast chars false [α a, α b] = .ok (some (a, b, 0, 0, 2)) := by
  have na : ¬ a ≥ 64 := by omega
  have nb : ¬ b ≥ 64 := by omega
  simp [b64DecLast, b64ValueOr, ht.val _ ha, ht.val _ hb, na, nb]

theorem decLoop_step_write {ep : Bool} {c0 c1 c2 c3 c4 : Byte} {rest out : List Byte} {oi v0 v1 v2 v3 : Nat}
    (h0 : b64Value chars c0 = .ok v0) (h1 : b64Value chars c1 = .ok v1) (h2 : b64Value chars c2 = .ok v2)
    (h3 : b64Value chars c3 = .ok v3) (l0 : v0 < 64) (l1 : v1 < 64) (l2 : v2 < 64) (l3 : v3 < 64) (h : oi + 3 < out.length) :
    b64DecLoop chars ep (c0 :: c1 :: c2 :: c3 :: c4 :: rest) out oi =
      b64DecLoop chars ep (c4 :: rest) (splice out oi [b64Byte0 v0 v1, b64Byte1 v1 v2, b64Byte2 v2 v3]) (oi + 3) := by
  rw [b64DecLoop, h0, ok_bind, h1, ok_bind, h2, ok_bind, h3, ok_bind, if_neg (by omega), if_neg (by omega), if_neg (by omega),
    if_neg (by omega), if_pos h, wr_one _ _ _ (by omega), ok_bind, wr_snoc' _ _ _ _ _ (by simp) (by omega), ok_bind,
    wr_snoc' _ _ _ _ _ (by simp) (by omega), ok_bind]
  rfl

theorem decLoop_step_skip {ep : Bool} {c0 c1 c2 c3 c4 : Byte} {rest out : List Byte} {oi v0 v1 v2 v3 : Nat}
    (h0 : b64Value chars c0 = .ok v0) (h1 : b64Value chars c1 = .ok v1) (h2 : b64Value chars c2 = .ok v2)
    (h3 : b64Value chars c3 = .ok v3) (l0 : v0 < 64) (l1 : v1 < 64) (l2 : v2 < 64) (l3 : v3 < 64) (h : ¬ oi + 3 < out.length) :
    b64DecLoop chars ep (c0 :: c1 :: c2 :: c3 :: c4 :: rest) out oi = b64DecLoop chars ep (c4 :: rest) out (oi + 3) := by
  rw [b64DecLoop, h0, ok_bind, h1, ok_bind, h2, ok_bind, h3, ok_bind, if_neg (by omega), if_neg (by omega), if_neg (by omega),
    if_neg (by omega), if_neg h]

theorem decLoop_step_bad {ep : Bool} {c0 c1 c2 c3 c4 : Byte} {rest out : List Byte} {oi v0 v1 v2 v3 : Nat}
    (h0 : b64Value chars c0 = .ok v0) (h1 : b64Value chars c1 = .ok v1) (h2 : b64Value chars c2 = .ok v2)
    (h3 : b64Value chars c3 = .ok v3) (l : ¬ (v0 < 64 ∧ v1 < 64 ∧ v2 < 64 ∧ v3 < 64)) :
    b64DecLoop chars ep (c0 :: c1 :: c2 :: c3 :: c4 :: rest) out oi = .ok (0, out) := by
  rw [b64DecLoop, h0, ok_bind, h1, ok_bind, h2, ok_bind, h3, ok_bind]
  by_cases l0 : v0 ≥ 64
  · rw [if_pos l0]
  rw [if_neg l0]
  by_cases l1 : v1 ≥ 64
  · rw [if_pos l1]
  rw [if_neg l1]
  by_cases l2 : v2 ≥ 64
  · rw [if_pos l2]
  rw [if_neg l2, if_pos (by omega)]

theorem rfc_ne_nil (pad : Bool) : ∀ {b : List Byte}, b ≠ [] → ∃ c r, rfc4648 α pad b = c :: r
  | [x], _ => by rw [rfc_one]; exact ⟨_, _, rfl⟩
  | [x, y], _ => by rw [rfc_two]; exact ⟨_, _, rfl⟩
  | x :: y :: z :: rest, _ => by rw [rfc_three]; exact ⟨_, _, rfl⟩

theorem dec_enc (ht : Table chars α) (pad : Bool) : ∀ (bytes out : List Byte) (oi : Nat), bytes ≠ [] →
    oi + bytes.length < out.length →
    b64DecLoop chars pad (rfc4648 α pad bytes) out oi = .ok (oi + bytes.length, splice out oi bytes)
  | [x], out, oi, _, h => by
    have hx := x.isLt
    obtain ⟨g0, _, _⟩ := group_bytes hx (y := 0) (by omega) (z := 0) (by omega)
    have key : ∀ w, lastBytes (x.toNat / 4) (x.toNat % 4 * 16 + 0 / 16) w 0 2 = [x] := by
      intro w
      rw [lastBytes, g0, ofNat8_toNat]; rfl
    have := b64DecOut_full (x.toNat / 4) (x.toNat % 4 * 16 + 0 / 16) 0 0 2 out oi (by rw [key]; exact h)
    rw [key] at this
    rw [rfc_one]
    cases pad
    · rw [← this]
      exact b64DecTail_some (last_one ht (by omega) (by omega))
    · rw [← this]
      exact b64DecTail_some (last_one_pad ht (by omega) (by omega))
  | [x, y], out, oi, _, h => by
    have hx := x.isLt
    have hy := y.isLt
    obtain ⟨g0, g1, _⟩ := group_bytes hx hy (z := 0) (by omega)
    rw [Nat.zero_div, Nat.add_zero] at g1
    have key : lastBytes (x.toNat / 4) (x.toNat % 4 * 16 + y.toNat / 16) (y.toNat % 16 * 4) 0 1 = [x, y] := by
      rw [lastBytes, g0, g1, ofNat8_toNat, ofNat8_toNat]; rfl
    have := b64DecOut_full (x.toNat / 4) (x.toNat % 4 * 16 + y.toNat / 16) (y.toNat % 16 * 4) 0 1 out oi (by rw [key]; exact h)
    rw [key] at this
    rw [rfc_two]
    cases pad
    · rw [← this]
      exact b64DecTail_some (last_two ht (by omega) (by omega) (by omega))
    · rw [← this]
      exact b64DecTail_some (last_two_pad ht (by omega) (by omega) (by omega))
  | [x, y, z], out, oi, _, h => by
    have hx := x.isLt
    have hy := y.isLt
    have hz := z.isLt
    obtain ⟨g0, g1, g2⟩ := group_bytes hx hy hz
    have key : lastBytes (x.toNat / 4) (x.toNat % 4 * 16 + y.toNat / 16) (y.toNat % 16 * 4 + z.toNat / 64) (z.toNat % 64) 0 = [x, y, z] := by
      rw [lastBytes, g0, g1, g2, ofNat8_toNat, ofNat8_toNat, ofNat8_toNat]; rfl
    have := b64DecOut_full (x.toNat / 4) (x.toNat % 4 * 16 + y.toNat / 16) (y.toNat % 16 * 4 + z.toNat / 64) (z.toNat % 64) 0 out oi (by rw [key]; exact h)
    rw [key] at this
    rw [rfc_three, sextets_eq hx hy hz, rfc4648, ← this]
    exact b64DecTail_some (last_full ht pad (by omega) (by omega) (by omega) (by omega))
  | x :: y :: z :: w :: rest, out, oi, _, h => by
    have hx := x.isLt
    have hy := y.isLt
    have hz := z.isLt
    obtain ⟨g0, g1, g2⟩ := group_bytes hx hy hz
    simp only [List.length_cons] at h
    obtain ⟨c, r, hc⟩ := rfc_ne_nil (α := α) pad (b := w :: rest) (by simp)
    rw [rfc_three, sextets_eq hx hy hz, hc]
    have := decLoop_step_write (ep := pad) (c4 := c) (rest := r) (out := out) (oi := oi)
      (ht.val (x.toNat / 4) (by omega)) (ht.val (x.toNat % 4 * 16 + y.toNat / 16) (by omega))
      (ht.val (y.toNat % 16 * 4 + z.toNat / 64) (by omega)) (ht.val (z.toNat % 64) (by omega))
      (by omega) (by omega) (by omega) (by omega) (by omega)
    rw [g0, g1, g2, ofNat8_toNat, ofNat8_toNat, ofNat8_toNat, ← hc,
      dec_enc ht pad (w :: rest) _ (oi + 3) (by simp) (by rw [splice_length _ _ _ (by simp; omega)]; simp; omega)] at this
    have e := splice_splice out oi [x, y, z] (w :: rest) (by simp; omega)
    rw [show oi + [x, y, z].length = oi + 3 from rfl] at e
    rw [e] at this
    rw [hc] at this
    refine Eq.trans this ?_
    congr 2
    simp only [List.length_cons]; omega

/-! ### Decoding any text -/

def InAlphabet (α : Nat → Byte) (c : Byte) : Prop := ∃ i, i < 64 ∧ c = α i

theorem not_inAlphabet (ht : Table chars α) {c : Byte} {v : Nat} (h : b64Value chars c = .ok v) (hv : 64 ≤ v) : ¬ InAlphabet α c := by
  rintro ⟨i, hi, rfl⟩
  rw [ht.val i hi] at h
  cases h
  omega

theorem decLast_any (ht : Table chars α) (ep : Bool) (cs : List Byte) (h4 : ep = true → cs.length = 4) (hl : cs.length ≤ 4) :
    (b64DecLast chars ep cs = .ok none ∧ ∃ c ∈ cs, ¬ InAlphabet α c) ∨
    ∃ v0 v1 v2 v3 pc, b64DecLast chars ep cs = .ok (some (v0, v1, v2, v3, pc)) ∧
      ∀ c ∈ cs, InAlphabet α c ∨ (ep = true ∧ c = 61) := by
  cases ep with
  | true =>
    obtain ⟨c0, c1, c2, c3, rfl⟩ : ∃ c0 c1 c2 c3, cs = [c0, c1, c2, c3] := by
      have := h4 rfl
      match cs, this with
      | [c0, c1, c2, c3], _ => exact ⟨_, _, _, _, rfl⟩
    obtain ⟨v0, e0, _⟩ := ht.any c0
    obtain ⟨v1, e1, _⟩ := ht.any c1
    obtain ⟨v2, e2, _⟩ := ht.any c2
    obtain ⟨v3, e3, _⟩ := ht.any c3
    rw [b64DecLast, if_pos rfl]
    simp only [e0, e1, e2, e3, ok_bind]
    by_cases l0 : v0 ≥ 64
    · rw [if_pos l0]; exact .inl ⟨rfl, c0, by simp, not_inAlphabet ht e0 l0⟩
    rw [if_neg l0]
    by_cases l1 : v1 ≥ 64
    · rw [if_pos l1]; exact .inl ⟨rfl, c1, by simp, not_inAlphabet ht e1 l1⟩
    rw [if_neg l1]
    by_cases l3 : v3 ≥ 64 ∧ c3 ≠ 61
    · rw [if_pos l3]; exact .inl ⟨rfl, c3, by simp, not_inAlphabet ht e3 l3.1⟩
    rw [if_neg l3]
    by_cases l2 : v2 ≥ 64 ∧ c2 ≠ 61
    · rw [if_pos l2]; exact .inl ⟨rfl, c2, by simp, not_inAlphabet ht e2 l2.1⟩
    rw [if_neg l2]
    refine .inr ⟨_, _, _, _, _, rfl, ?_⟩
    intro c hc
    simp only [List.mem_cons, List.not_mem_nil, or_false] at hc
    rcases hc with rfl | rfl | rfl | rfl
    · exact .inl ⟨v0, by omega, ht.inv _ _ e0 (by omega)⟩
    · exact .inl ⟨v1, by omega, ht.inv _ _ e1 (by omega)⟩
    · by_cases h : v2 < 64
      · exact .inl ⟨v2, h, ht.inv _ _ e2 h⟩
      · exact .inr ⟨trivial, by_contra fun hne => l2 ⟨by omega, hne⟩⟩
    · by_cases h : v3 < 64
      · exact .inl ⟨v3, h, ht.inv _ _ e3 h⟩
      · exact .inr ⟨trivial, by_contra fun hne => l3 ⟨by omega, hne⟩⟩
  | false =>
    have get : ∀ k : Nat, ∃ v, b64ValueOr chars cs[k]? = .ok v ∧
        (∀ c, cs[k]? = some c → b64Value chars c = .ok v) ∧ (cs[k]? = none → v = 0) := by
      intro k
      cases hk : cs[k]? with
      | none => exact ⟨0, rfl, by simp, by simp⟩
      | some c =>
        obtain ⟨v, e, _⟩ := ht.any c
        refine ⟨v, e, ?_, by simp⟩
        intro c' hc'
        cases hc'
        exact e
    have bad : ∀ k v : Nat, (∀ c, cs[k]? = some c → b64Value chars c = .ok v) → (cs[k]? = none → v = 0) → v ≥ 64 →
        ∃ c ∈ cs, ¬ InAlphabet α c := by
      intro k v h1 h2 hv
      cases hk : cs[k]? with
      | none => have := h2 hk; omega
      | some c => exact ⟨c, List.mem_of_getElem? hk, not_inAlphabet ht (h1 c hk) hv⟩
    obtain ⟨v0, e0, f0, g0⟩ := get 0
    obtain ⟨v1, e1, f1, g1⟩ := get 1
    obtain ⟨v2, e2, f2, g2⟩ := get 2
    obtain ⟨v3, e3, f3, g3⟩ := get 3
    rw [b64DecLast.eq_def, if_neg (by simp), e0, ok_bind, e1, ok_bind, e2, ok_bind, e3, ok_bind]
    by_cases l0 : v0 ≥ 64
    · rw [if_pos l0]; exact .inl ⟨rfl, bad 0 _ f0 g0 l0⟩
    rw [if_neg l0]
    by_cases l1 : v1 ≥ 64
    · rw [if_pos l1]; exact .inl ⟨rfl, bad 1 _ f1 g1 l1⟩
    rw [if_neg l1]
    by_cases l2 : v2 ≥ 64
    · rw [if_pos l2]; exact .inl ⟨rfl, bad 2 _ f2 g2 l2⟩
    rw [if_neg l2]
    by_cases l3 : v3 ≥ 64
    · rw [if_pos l3]; exact .inl ⟨rfl, bad 3 _ f3 g3 l3⟩
    rw [if_neg l3]
    refine .inr ⟨_, _, _, _, _, rfl, ?_⟩
    intro c hc
    left
    obtain ⟨k, hk, rfl⟩ := List.mem_iff_getElem.1 hc
    have hk' := List.getElem?_eq_getElem hk
    have : k = 0 ∨ k = 1 ∨ k = 2 ∨ k = 3 := by omega
    rcases this with rfl | rfl | rfl | rfl
    · exact ⟨v0, by omega, ht.inv _ _ (f0 _ hk') (by omega)⟩
    · exact ⟨v1, by omega, ht.inv _ _ (f1 _ hk') (by omega)⟩
    · exact ⟨v2, by omega, ht.inv _ _ (f2 _ hk') (by omega)⟩
    · exact ⟨v3, by omega, ht.inv _ _ (f3 _ hk') (by omega)⟩

/-- What decoding does with a text, for every buffer. -/
def DecodesTo (run : List Byte → Nat → C (Nat × List Byte)) (D : List Byte) : Prop :=
  ∀ out oi, (∃ o, o.length = out.length ∧ run out oi = .ok (oi + D.length, o)) ∧
    (oi + D.length < out.length → run out oi = .ok (oi + D.length, splice out oi D))

def DecodeFails (run : List Byte → Nat → C (Nat × List Byte)) : Prop :=
  ∀ out oi, ∃ o, o.length = out.length ∧ run out oi = .ok (0, o)

theorem decTail_any (ht : Table chars α) (ep : Bool) (cs : List Byte) (h4 : ep = true → cs.length = 4) (hl : cs.length ≤ 4) :
    (DecodeFails (b64DecTail chars ep cs) ∧ ∃ c ∈ cs, ¬ InAlphabet α c) ∨
    (∃ D, D ≠ [] ∧ DecodesTo (b64DecTail chars ep cs) D ∧ ∀ c ∈ cs, InAlphabet α c ∨ (ep = true ∧ c = 61)) := by
  rcases decLast_any ht ep cs h4 hl with ⟨h, hb⟩ | ⟨v0, v1, v2, v3, pc, h, hb⟩
  · exact .inl ⟨fun out oi => ⟨out, rfl, b64DecTail_none h⟩, hb⟩
  · refine .inr ⟨lastBytes v0 v1 v2 v3 pc, by simp [lastBytes], ?_, hb⟩
    intro out oi
    rw [b64DecTail_some h]
    exact ⟨b64DecOut_len _ _ _ _ _ _ _, b64DecOut_full _ _ _ _ _ _ _⟩

theorem dec_any (ht : Table chars α) (ep : Bool) : ∀ (cs : List Byte), cs ≠ [] → (ep = true → cs.length % 4 = 0) →
    (DecodeFails (b64DecLoop chars ep cs) ∧ ∃ c ∈ cs, ¬ InAlphabet α c) ∨
    (∃ D, D ≠ [] ∧ DecodesTo (b64DecLoop chars ep cs) D ∧ ∀ c ∈ cs, InAlphabet α c ∨ (ep = true ∧ c = 61))
  | [c0], _, h => decTail_any ht ep [c0] (fun he => absurd (h he) (by simp)) (by simp)
  | [c0, c1], _, h => decTail_any ht ep [c0, c1] (fun he => absurd (h he) (by simp)) (by simp)
  | [c0, c1, c2], _, h => decTail_any ht ep [c0, c1, c2] (fun he => absurd (h he) (by simp)) (by simp)
  | [c0, c1, c2, c3], _, _ => decTail_any ht ep [c0, c1, c2, c3] (fun _ => rfl) (by simp)
  | c0 :: c1 :: c2 :: c3 :: c4 :: rest, _, h => by
    obtain ⟨v0, e0, _⟩ := ht.any c0
    obtain ⟨v1, e1, _⟩ := ht.any c1
    obtain ⟨v2, e2, _⟩ := ht.any c2
    obtain ⟨v3, e3, _⟩ := ht.any c3
    by_cases hv : v0 < 64 ∧ v1 < 64 ∧ v2 < 64 ∧ v3 < 64
    · obtain ⟨l0, l1, l2, l3⟩ := hv
      have h' : ep = true → (c4 :: rest).length % 4 = 0 := fun he => by have := h he; simp only [List.length_cons] at this ⊢; omega
      have inA : ∀ c ∈ c0 :: c1 :: c2 :: c3 :: c4 :: rest, InAlphabet α c ∨ c ∈ c4 :: rest := by
        intro c hc
        simp only [List.mem_cons] at hc
        rcases hc with rfl | rfl | rfl | rfl | hc
        · exact .inl ⟨v0, l0, ht.inv _ _ e0 l0⟩
        · exact .inl ⟨v1, l1, ht.inv _ _ e1 l1⟩
        · exact .inl ⟨v2, l2, ht.inv _ _ e2 l2⟩
        · exact .inl ⟨v3, l3, ht.inv _ _ e3 l3⟩
        · exact .inr (by simpa using hc)
      rcases dec_any ht ep (c4 :: rest) (by simp) h' with ⟨hf, c, hc, hb⟩ | ⟨D, hne, hD, hb⟩
      · refine .inl ⟨fun out oi => ?_, c, by simp only [List.mem_cons] at hc ⊢; tauto, hb⟩
        by_cases hw : oi + 3 < out.length
        · rw [decLoop_step_write e0 e1 e2 e3 l0 l1 l2 l3 hw]
          obtain ⟨o, ho, he⟩ := hf (splice out oi [b64Byte0 v0 v1, b64Byte1 v1 v2, b64Byte2 v2 v3]) (oi + 3)
          exact ⟨o, by rw [ho, splice_length _ _ _ (by simp; omega)], he⟩
        · rw [decLoop_step_skip e0 e1 e2 e3 l0 l1 l2 l3 hw]
          exact hf out (oi + 3)
      · refine .inr ⟨[b64Byte0 v0 v1, b64Byte1 v1 v2, b64Byte2 v2 v3] ++ D, by simp, fun out oi => ?_, ?_⟩
        · have el : oi + ([b64Byte0 v0 v1, b64Byte1 v1 v2, b64Byte2 v2 v3] ++ D).length = oi + 3 + D.length := by
            simp; omega
          rw [el]
          by_cases hw : oi + 3 < out.length
          · rw [decLoop_step_write e0 e1 e2 e3 l0 l1 l2 l3 hw]
            obtain ⟨⟨o, ho, he⟩, hfull⟩ := hD (splice out oi [b64Byte0 v0 v1, b64Byte1 v1 v2, b64Byte2 v2 v3]) (oi + 3)
            rw [splice_length _ _ _ (by simp; omega)] at ho hfull
            refine ⟨⟨o, ho, he⟩, fun hlt => ?_⟩
            rw [hfull hlt]
            have e := splice_splice out oi [b64Byte0 v0 v1, b64Byte1 v1 v2, b64Byte2 v2 v3] D (by simp; omega)
            rw [← e]; rfl
          · rw [decLoop_step_skip e0 e1 e2 e3 l0 l1 l2 l3 hw]
            exact ⟨(hD out (oi + 3)).1, fun hlt => by omega⟩
        · intro c hc
          rcases inA c hc with h | h
          · exact .inl h
          · exact hb c h
    · refine .inl ⟨fun out oi => ⟨out, rfl, decLoop_step_bad e0 e1 e2 e3 hv⟩, ?_⟩
      by_cases l0 : v0 < 64
      · by_cases l1 : v1 < 64
        · by_cases l2 : v2 < 64
          · exact ⟨c3, by simp, not_inAlphabet ht e3 (by omega)⟩
          · exact ⟨c2, by simp, not_inAlphabet ht e2 (by omega)⟩
        · exact ⟨c1, by simp, not_inAlphabet ht e1 (by omega)⟩
      · exact ⟨c0, by simp, not_inAlphabet ht e0 (by omega)⟩

end Tm.Str
