import Verif.Hash.Lemmas
namespace Tm.Hash

variable {K V : Type} [DecidableEq K] {ks : Keys K} {m : Map K V} {f : Contents K V}

/-- One of the calls of `malloc` from number `n` on, before number `calls`, failed. -/
def Refused (mem : Nat → Bool) (n calls : Nat) : Prop := ∃ j size, n ≤ j ∧ j < calls ∧ canAlloc mem j size = false

theorem Refused.mono {mem : Nat → Bool} {a b a' b' : Nat} (h : Refused mem a b) (h1 : a' ≤ a) (h2 : b ≤ b') : Refused mem a' b' := by
  obtain ⟨j, s, x, y, z⟩ := h
  exact ⟨j, s, by omega, by omega, z⟩

/-- What an insertion into a map of at least `2^E` slots promises. -/
def InsGood (ks : Keys K) (mem : Nat → Bool) (E : Nat) (ins : Ins K V) : Prop :=
  ∀ (m : Map K V) (f : Contents K V) (n : Nat) (k : K) (v : V), Inv ks m f → k ≠ ks.tomb → 2 ^ E ≤ m.keys.length →
    ∃ r, ins m n k v = .ok r ∧ n ≤ r.calls ∧
      (r.ok = true → Inv ks r.map (f.set k (some v)) ∧ (Exact ks m → Exact ks r.map) ∧ m.keys.length ≤ r.map.keys.length) ∧
      (r.ok = false → (∃ f', Contents.Sub f' f ∧ Inv ks r.map f') ∧ Refused mem n r.calls) ∧ (Low ks m → Low ks r.map)

omit [DecidableEq K] in
theorem Inv.congr {f g : Contents K V} (h : Inv ks m f) (e : ∀ k, g k = f k) : Inv ks m g := by
  rw [show g = f from funext e]; exact h

theorem blank_inv (ks : Keys K) (e : Nat) (h1 : 4 ≤ e) (h2 : e ≤ 62) :
    Inv ks (Map.blank ks (2 ^ e) : Map K V) Contents.empty ∧ Exact ks (Map.blank ks (2 ^ e) : Map K V) := by
  have hk : ∀ (p : Nat) (k : K), (List.replicate (2 ^ e) ks.tomb)[p]? = some k → k = ks.tomb := by
    intro p k h
    rw [List.getElem?_replicate] at h
    split at h
    · cases h; rfl
    · cases h
  have hu : used ks (List.replicate (2 ^ e) ks.tomb) = 0 := by simp [used]
  refine ⟨⟨rfl, ⟨e, h1, h2, by simp [Map.blank]⟩, by simp [Map.blank], ?_, ?_, ?_, ?_, Nat.zero_le _⟩, ?_⟩
  · intro p k h hn; exact absurd (hk p k h) hn
  · intro p q k h _ hn; exact absurd (hk p k h) hn
  · intro p k h hn; exact absurd (hk p k h) hn
  · intro k v h; cases h
  · show 0 = used ks (List.replicate (2 ^ e) ks.tomb)
    rw [hu]

/-- Moving the entries of the old map from slot `i` on. -/
theorem rehash_good {mem : Nat → Bool} {E : Nat} {ins : Ins K V} (hins : InsGood ks mem E ins) (f : Contents K V) (left i : Nat) (old new : Map K V)
    (fo fn : Contents K V) (n : Nat) (ho : Inv ks old fo) (hn : Inv ks new fn) (hx : Exact ks new) (hE : 2 ^ E ≤ new.keys.length)
    (hlen : i + left = old.keys.length) (hdone : ∀ (p : Nat) (k : K), p < i → old.keys[p]? = some k → k = ks.tomb)
    (hf : ∀ k, f k = (fo k).orElse fun _ => fn k) :
    ∃ r, rehash ks ins left i old new n = .ok r ∧ n ≤ r.calls ∧
      (r.ok = true → Inv ks r.new f ∧ Exact ks r.new ∧ new.keys.length ≤ r.new.keys.length) ∧
      (r.ok = false → ((∃ f', Contents.Sub f' f ∧ Inv ks r.old f') ∧ Refused mem n r.calls) ∧ (Low ks old → Low ks r.old)) := by
  induction left generalizing i old new fo fn n with
  | zero =>
    refine ⟨⟨true, old, new, n⟩, rfl, Nat.le_refl _, fun _ => ⟨?_, hx, Nat.le_refl _⟩, fun h => by cases h⟩
    refine hn.congr fun k => ?_
    rw [hf k]
    cases hk : fo k with
    | none => rfl
    | some v =>
      obtain ⟨hkt, p, hp⟩ := ho.only k v hk
      have := (List.getElem?_eq_some_iff.mp hp).1
      exact absurd (hdone p k (by omega) hp) hkt
  | succ left ih =>
    have hi : i < old.keys.length := by omega
    have hc := List.getElem?_eq_getElem hi
    generalize old.keys[i] = k at hc
    rw [rehash, rd_some hc, ok_bind]
    by_cases hk : k = ks.tomb
    · rw [if_pos hk]
      refine ih (i + 1) old new fo fn n ho hn hx hE (by omega) ?_ hf
      intro p k' hp hpk
      by_cases hpi : p = i
      · subst hpi; rw [hc] at hpk; cases hpk; exact hk
      · exact hdone p k' (by omega) hpk
    · rw [if_neg hk]
      obtain ⟨v, hv, hfk⟩ := ho.value i k hc hk
      rw [rd_some hv, ok_bind]
      obtain ⟨r, hr, hcalls, hgood, hbad, hlo⟩ := hins new fn n k v hn hk hE
      dsimp only
      rw [hr, ok_bind]
      unfold rehashNext
      cases hro : r.ok with
      | false =>
        rw [if_neg (by simp)]
        refine ⟨_, rfl, hcalls, fun h => by (cases h), fun _ => ⟨⟨⟨fo, ?_, ho⟩, (hbad hro).2⟩, id⟩⟩
        intro k' v' h
        rw [hf k', h]; rfl
      | true =>
        rw [if_pos rfl, wr_lt _ hi, ok_bind]
        obtain ⟨h1, h2, h3⟩ := hgood hro
        have hold : Inv ks { old with keys := old.keys.set i ks.tomb } (fo.set k none) :=
          ho.clear hk hc rfl (fun q _ => rfl) ho.high
        obtain ⟨r', e1, e2, e3, e4⟩ := ih (i + 1) { old with keys := old.keys.set i ks.tomb } r.map (fo.set k none) (fn.set k (some v))
          r.calls hold h1 (h2 hx) (by omega) (by show i + 1 + left = (old.keys.set i ks.tomb).length; rw [List.length_set]; omega)
          (by
            intro p k' hp hpk
            have hpk : (old.keys.set i ks.tomb)[p]? = some k' := hpk
            by_cases hpi : p = i
            · subst hpi; rw [List.getElem?_set_self hi] at hpk; cases hpk; rfl
            · rw [List.getElem?_set_ne (Ne.symm hpi)] at hpk
              exact hdone p k' (by omega) hpk)
          (by
            intro k'
            rw [hf k']
            unfold Contents.set
            by_cases hkk : k' = k
            · subst hkk; rw [if_pos rfl, if_pos rfl, hfk]; rfl
            · rw [if_neg hkk, if_neg hkk])
        refine ⟨r', e1, by omega, fun h => ?_, fun h => ⟨⟨(e4 h).1.1, (e4 h).1.2.mono hcalls (Nat.le_refl _)⟩, fun hl => (e4 h).2 ?_⟩⟩
        · obtain ⟨a, b, c⟩ := e3 h
          exact ⟨a, b, by omega⟩
        · show used ks (old.keys.set i ks.tomb) ≤ old.count
          have := used_clear hc hk
          unfold Low at hl; omega

/-- What `grow` promises. -/
theorem grow_good {mem : Nat → Bool} {E : Nat} {ins : Ins K V} (hins : InsGood ks mem (E + 1) ins) (h : Inv ks m f)
    (hE : 2 ^ E ≤ m.keys.length) (n : Nat) :
    ∃ r, grow ks mem ins m n = .ok r ∧ n ≤ r.calls ∧
      (r.ok = true → Inv ks r.map f ∧ Exact ks r.map ∧ 2 * m.keys.length ≤ r.map.keys.length) ∧
      (r.ok = false → ((∃ f', Contents.Sub f' f ∧ Inv ks r.map f') ∧ Refused mem n r.calls) ∧ (Low ks m → Low ks r.map)) := by
  unfold grow
  dsimp only
  by_cases hm : (!canAlloc mem n (m.keys.length * 2) || !canAlloc mem (n + 1) (m.keys.length * 2)) = true
  · rw [if_pos hm]
    refine ⟨_, rfl, by show n ≤ n + 2; omega, fun h => by (cases h), fun _ => ⟨⟨⟨f, fun k v e => e, h⟩, ?_⟩, id⟩⟩
    simp only [Bool.or_eq_true, Bool.not_eq_true'] at hm
    rcases hm with hm | hm
    · exact ⟨n, _, Nat.le_refl _, by show n < n + 2; omega, hm⟩
    · exact ⟨n + 1, _, by omega, by show n + 1 < n + 2; omega, hm⟩
  · rw [if_neg hm]
    have hcap : m.keys.length * 2 < 2 ^ 63 := by
      simp only [Bool.or_eq_true, Bool.not_eq_true', not_or, Bool.not_eq_false] at hm
      have := hm.1
      unfold canAlloc at this
      simp only [Bool.and_eq_true, decide_eq_true_eq] at this
      exact this.2
    obtain ⟨e, h1, h2, he⟩ := h.size
    have hpow : m.keys.length * 2 = 2 ^ (e + 1) := by rw [he]; rfl
    have hlt : e + 1 < 63 := by
      rw [hpow] at hcap
      exact (Nat.pow_lt_pow_iff_right (by omega)).mp hcap
    obtain ⟨hb1, hb2⟩ := blank_inv (K := K) (V := V) ks (e + 1) (by omega) (by omega)
    rw [hpow]
    have hlen : (Map.blank ks (2 ^ (e + 1)) : Map K V).keys.length = 2 ^ (e + 1) := by simp [Map.blank]
    obtain ⟨r, hr, hc, hg, hb⟩ := rehash_good hins f m.keys.length 0 m (Map.blank ks (2 ^ (e + 1))) f Contents.empty (n + 2) h hb1 hb2
      (by rw [hlen, ← hpow, Nat.pow_succ]; omega) (by omega) (fun p k hp => by omega)
      (fun k => by cases f k <;> rfl)
    rw [hr, ok_bind]
    cases hro : r.ok with
    | false =>
      rw [if_pos (by rfl)]
      exact ⟨_, rfl, by show n ≤ r.calls; omega, fun h => by (cases h), fun _ => ⟨⟨(hb hro).1.1, (hb hro).1.2.mono (by omega) (Nat.le_refl _)⟩, (hb hro).2⟩⟩
    | true =>
      rw [if_neg (by simp)]
      obtain ⟨a, b, c⟩ := hg hro
      refine ⟨_, rfl, by show n ≤ r.calls; omega, fun _ => ⟨a, b, ?_⟩, fun h => by (cases h)⟩
      show 2 * m.keys.length ≤ r.new.keys.length
      rw [hlen] at c; omega

theorem used_lt {keys : List K} {p : Nat} (h : keys[p]? = some ks.tomb) : used ks keys < keys.length := by
  unfold used
  have hl := List.countP_le_length (p := fun k => decide (k ≠ ks.tomb)) (l := keys)
  rcases Nat.lt_or_eq_of_le hl with h' | h'
  · exact h'
  · rw [List.countP_eq_length] at h'
    have := h' _ (List.mem_of_getElem? h)
    simp at this

/-- The loop of `insert_move`. -/
theorem insertLoop_good {mem : Nat → Bool} {E : Nat} {ins : Ins K V} (hins : ∀ E', E ≤ E' → InsGood ks mem (E' + 1) ins) {key : K}
    (hk : key ≠ ks.tomb) (value : V) (fuel : Nat) (m : Map K V) (f : Contents K V) (n : Nat) (E' : Nat) (hE' : E ≤ E') (h : Inv ks m f)
    (hlen : 2 ^ E' ≤ m.keys.length) (hfuel : 63 ≤ fuel + E') (hroom : m.count + 1 ≤ m.keys.length ∨ Exact ks m) :
    ∃ r, insertLoop ks mem ins fuel m n key value = .ok r ∧ n ≤ r.calls ∧
      (r.ok = true → Inv ks r.map (f.set key (some value)) ∧ (Exact ks m → Exact ks r.map) ∧ m.keys.length ≤ r.map.keys.length) ∧
      (r.ok = false → (∃ f', Contents.Sub f' f ∧ Inv ks r.map f') ∧ Refused mem n r.calls) ∧ (Low ks m → Low ks r.map) := by
  induction fuel generalizing m n E' with
  | zero =>
    have h1 := h.cap_le
    have h2 : 2 ^ 63 ≤ 2 ^ E' := Nat.pow_le_pow_right (by omega) (by omega)
    omega
  | succ fuel ih =>
    rw [insertLoop]
    rcases h.probe hk maxProbe 0 none with ⟨p, j, a, _, _, _, e⟩ | ⟨p, a, b, c⟩ | ⟨a, _, _⟩
    · rw [a, ok_bind]
      dsimp only
      obtain ⟨m', hm', hi', hk', hc'⟩ := h.put_existing hk e value
      rw [hm', ok_bind]
      refine ⟨_, rfl, Nat.le_refl _, fun _ => ⟨hi', ?_, ?_⟩, fun h => by (cases h), ?_⟩
      · intro hx; show m'.count = used ks m'.keys; rw [hk', hc']; exact hx
      · show _ ≤ m'.keys.length; rw [hk']
      · intro hx; show used ks m'.keys ≤ m'.count; rw [hk', hc']; exact hx
    · rw [a, ok_bind]
      dsimp only
      rcases c with c | ⟨j, _, hj, hp, ht⟩
      · cases c
      · have habs := h.absent hk fun j hj => b j (Nat.zero_le _) (by omega)
        have hr : m.count + 1 ≤ m.keys.length := by
          rcases hroom with hr | hx
          · exact hr
          · have := used_lt ht; rw [hx]; omega
        obtain ⟨m', hm', hi', hl', hx', hw'⟩ := h.put_new hk (by omega) hp ht habs hr value
        rw [hm', ok_bind]
        exact ⟨_, rfl, Nat.le_refl _, fun _ => ⟨hi', hx', by show _ ≤ m'.keys.length; omega⟩, fun h => by (cases h), hw'⟩
    · rw [a, ok_bind]
      dsimp only
      obtain ⟨g, hg, hc, hgood, hbad⟩ := grow_good (hins E' hE') h hlen n
      rw [hg, ok_bind]
      cases hgo : g.ok with
      | false =>
        rw [if_pos (by rfl)]
        exact ⟨_, rfl, hc, fun h => by (cases h), fun _ => (hbad hgo).1, (hbad hgo).2⟩
      | true =>
        rw [if_neg (by simp)]
        obtain ⟨x, y, z⟩ := hgood hgo
        obtain ⟨r, r1, r2, r3, r4, r5⟩ := ih g.map g.calls (E' + 1) (by omega) x (by rw [Nat.pow_succ]; omega) (by omega) (Or.inr y)
        refine ⟨r, r1, by omega, fun h => ?_, fun h => ⟨(r4 h).1, (r4 h).2.mono hc (Nat.le_refl _)⟩, fun _ => r5 (Nat.le_of_eq y.symm)⟩
        obtain ⟨s1, s2, s3⟩ := r3 h
        exact ⟨s1, fun _ => s2 y, by omega⟩

/-- `insert_move` with enough fuel for the size of the map. -/
theorem insertMove_good (ks : Keys K) (mem : Nat → Bool) (fuel E : Nat) (hfuel : 63 ≤ fuel + E) :
    InsGood ks mem E (insertMove (V := V) ks mem fuel) := by
  induction fuel generalizing E with
  | zero =>
    intro m f n k v h hk hE
    have h1 := h.cap_le
    have h2 : 2 ^ 63 ≤ 2 ^ E := Nat.pow_le_pow_right (by omega) (by omega)
    omega
  | succ fuel ih =>
    intro m f n k v h hk hE
    rw [insertMove, h.check, ok_bind, if_neg hk]
    have hins : ∀ E', E ≤ E' → InsGood ks mem (E' + 1) (insertMove (V := V) ks mem fuel) := fun E' hE' => ih (E' + 1) (by omega)
    unfold growIfFull
    by_cases hfull : m.keys.length / 2 + m.keys.length / 2 / 2 ≤ m.count + 1
    · rw [if_pos hfull]
      obtain ⟨g, hg, hc, hgood, hbad⟩ := grow_good (hins E (Nat.le_refl _)) h hE n
      rw [hg, ok_bind]
      cases hgo : g.ok with
      | false =>
        rw [if_pos (by rfl)]
        exact ⟨_, rfl, hc, fun h => by (cases h), fun _ => (hbad hgo).1, (hbad hgo).2⟩
      | true =>
        rw [if_neg (by simp)]
        obtain ⟨x, y, z⟩ := hgood hgo
        obtain ⟨r, r1, r2, r3, r4, r5⟩ := insertLoop_good hins hk v (fuel + 1) g.map f g.calls E (Nat.le_refl _) x (by omega) (by omega) (Or.inr y)
        refine ⟨r, r1, by omega, fun h => ?_, fun h => ⟨(r4 h).1, (r4 h).2.mono hc (Nat.le_refl _)⟩, fun _ => r5 (Nat.le_of_eq y.symm)⟩
        obtain ⟨s1, s2, s3⟩ := r3 h
        exact ⟨s1, fun _ => s2 y, by omega⟩
    · rw [if_neg hfull, ok_bind]
      dsimp only
      rw [if_neg (by simp)]
      exact insertLoop_good hins hk v (fuel + 1) m f n E (Nat.le_refl _) h hE (by omega) (Or.inl (by omega))

end Tm.Hash
