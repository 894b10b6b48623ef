import Verif.Hash.Insert
namespace Tm.Hash

variable {K V : Type} [DecidableEq K] {ks : Keys K} {m : Map K V} {f : Contents K V}

/-- `find` with reading the value. -/
theorem Inv.find (h : Inv ks m f) (hl : Low ks m) {key : K} (hk : key ≠ ks.tomb) : (m.find ks key >>= readFound) = .ok (f key) := by
  unfold Map.find
  rcases h.findIndex hl hk with ⟨p, hp, hkey⟩ | ⟨hp, hf⟩
  · obtain ⟨v, hv, hf⟩ := h.value p key hkey hk
    rw [hp, ok_bind]
    dsimp only
    rw [rd_some hv, ok_bind, hf]
    rfl
  · rw [hp, hf]; rfl

/-- Emptying a slot that holds a key. -/
theorem Inv.clearSlot (h : Inv ks m f) {p : Nat} {key : K} (hp : m.keys[p]? = some key) (hk : key ≠ ks.tomb) (h0 : 0 < m.count) :
    ∃ m', m.clearSlot ks p = .ok m' ∧ Inv ks m' (f.set key none) ∧ (Low ks m → Low ks m') ∧ (Exact ks m → Exact ks m') ∧
      m'.keys.length = m.keys.length := by
  have hlt := (List.getElem?_eq_some_iff.mp hp).1
  have hu := used_clear hp hk
  have hh := h.high
  refine ⟨⟨m.hasData, m.keys.set p ks.tomb, m.vals.set p none, m.count - 1⟩, ?_, ?_, ?_, ?_, by simp⟩
  · unfold Map.clearSlot
    rw [wr_lt _ hlt, ok_bind, wr_lt _ (by rw [h.vals]; exact hlt), ok_bind, if_neg (by omega)]
    rfl
  · exact h.clear hk hp (by simp) (fun q hq => List.getElem?_set_ne (Ne.symm hq)) (by omega)
  · intro hl
    show used ks (m.keys.set p ks.tomb) ≤ m.count - 1
    unfold Low at hl; omega
  · intro hx
    show m.count - 1 = used ks (m.keys.set p ks.tomb)
    unfold Exact at hx; omega

omit [DecidableEq K] in
theorem set_none_of_none {f : Contents K V} [DecidableEq K] {k : K} (h : f k = none) : f.set k none = f := by
  funext x
  unfold Contents.set
  split
  · rename_i e; subst e; exact h.symm
  · rfl

theorem pos_of_used {keys : List K} {p : Nat} {k : K} (hp : keys[p]? = some k) (hk : k ≠ ks.tomb) : 0 < used ks keys := by
  have := used_clear hp hk; omega

theorem Inv.remove (h : Inv ks m f) (hl : Low ks m) {key : K} (hk : key ≠ ks.tomb) :
    ∃ m', m.remove ks key = .ok ((f key).isSome, m') ∧ Inv ks m' (f.set key none) ∧ Low ks m' ∧ (Exact ks m → Exact ks m') := by
  unfold Map.remove
  rcases h.findIndex hl hk with ⟨p, hp, hkey⟩ | ⟨hp, hf⟩
  · obtain ⟨v, _, hf⟩ := h.value p key hkey hk
    have := pos_of_used hkey hk
    obtain ⟨m', hm, h1, h2, h3, _⟩ := h.clearSlot hkey hk (by unfold Low at hl; omega)
    rw [hp, ok_bind]
    dsimp only
    rw [hm, ok_bind, hf]
    exact ⟨m', rfl, h1, h2 hl, h3⟩
  · rw [hp, ok_bind, hf]
    exact ⟨m, rfl, by rw [set_none_of_none hf]; exact h, hl, id⟩

/-- What `get` returns. -/
theorem Inv.get (h : Inv ks m f) (i : Nat) :
    (∃ k v, m.get ks i = .ok (some (k, some v)) ∧ m.keys[i]? = some k ∧ k ≠ ks.tomb ∧ f k = some v) ∨
    (m.get ks i = .ok none ∧ ∀ k, m.keys[i]? = some k → k = ks.tomb) := by
  unfold Map.get
  rw [h.check, ok_bind]
  by_cases hi : i < m.keys.length
  · rw [if_pos hi]
    have hc := List.getElem?_eq_getElem hi
    generalize m.keys[i] = k at hc
    rw [rd_some hc, ok_bind]
    by_cases hk : k = ks.tomb
    · rw [if_pos hk]
      exact Or.inr ⟨rfl, fun k' e => by rw [hc] at e; cases e; exact hk⟩
    · rw [if_neg hk]
      obtain ⟨v, hv, hf⟩ := h.value i k hc hk
      rw [rd_some hv, ok_bind]
      exact Or.inl ⟨k, v, rfl, hc, hk, hf⟩
  · rw [if_neg hi]
    refine Or.inr ⟨rfl, fun k e => ?_⟩
    exact absurd (List.getElem?_eq_some_iff.mp e).1 hi

/-- What `remove_index` does. -/
theorem Inv.removeIndex (h : Inv ks m f) (h0 : 0 < m.count) (i : Nat) :
    (∃ k m', m.removeIndex ks i = .ok (true, m') ∧ m.keys[i]? = some k ∧ k ≠ ks.tomb ∧ Inv ks m' (f.set k none) ∧
      (Low ks m → Low ks m') ∧ (Exact ks m → Exact ks m')) ∨
    (m.removeIndex ks i = .ok (false, m) ∧ ∀ k, m.keys[i]? = some k → k = ks.tomb) := by
  unfold Map.removeIndex
  rw [assert_t (by simpa using h0), ok_bind]
  by_cases hi : i < m.keys.length
  · rw [if_pos hi]
    have hc := List.getElem?_eq_getElem hi
    generalize m.keys[i] = k at hc
    rw [rd_some hc, ok_bind]
    by_cases hk : k = ks.tomb
    · rw [if_pos hk]
      exact Or.inr ⟨rfl, fun k' e => by rw [hc] at e; cases e; exact hk⟩
    · rw [if_neg hk]
      obtain ⟨m', hm, h1, h2, h3, _⟩ := h.clearSlot hc hk h0
      rw [hm, ok_bind]
      exact Or.inl ⟨k, m', rfl, hc, hk, h1, h2, h3⟩
  · rw [if_neg hi]
    refine Or.inr ⟨rfl, fun k e => ?_⟩
    exact absurd (List.getElem?_eq_some_iff.mp e).1 hi

theorem Inv.insert (h : Inv ks m f) (mem : Nat → Bool) {fuel : Nat} (hfuel : 64 ≤ fuel) (n : Nat) {k : K} (hk : k ≠ ks.tomb) (v : V) :
    ∃ r, Tm.Hash.insert ks mem fuel m n k v = .ok r ∧ n ≤ r.calls ∧
      (r.ok = true → Inv ks r.map (f.set k (some v)) ∧ (Exact ks m → Exact ks r.map) ∧ m.keys.length ≤ r.map.keys.length) ∧
      (r.ok = false → (∃ f', Contents.Sub f' f ∧ Inv ks r.map f') ∧ Refused mem n r.calls) ∧ (Low ks m → Low ks r.map) := by
  unfold Tm.Hash.insert
  rw [if_neg hk]
  exact insertMove_good ks mem fuel 0 (by omega) m f n k v h hk h.pos

/-- One operation. -/
theorem step_good {c : Client K V} (mem : Nat → Bool) {fuel : Nat} (hfuel : 64 ≤ fuel) (h : Inv ks c.map f) (hl : Low ks c.map)
    {op : Op K V} (hop : op.Proper ks.tomb) :
    ∃ s c' f', c.step ks mem fuel op = .ok (s, c') ∧ Explains ks.tomb f op s f' ∧ Inv ks c'.map f' ∧ Low ks c'.map ∧
      (Exact ks c.map → ¬ FailedInsert ks.tomb (op, s) → Exact ks c'.map) := by
  cases op with
  | insert k v =>
    simp only [Client.step]
    by_cases hk : k = ks.tomb
    · subst hk
      unfold Tm.Hash.insert
      rw [if_pos rfl, ok_bind]
      exact ⟨_, _, f, rfl, .insertTomb, h, hl, fun hx _ => hx⟩
    · obtain ⟨r, hr, _, h1, h2, h3⟩ := h.insert mem hfuel c.calls hk v
      rw [hr, ok_bind]
      cases hro : r.ok with
      | true => exact ⟨_, _, _, rfl, .insert hk, (h1 hro).1, h3 hl, fun hx _ => (h1 hro).2.1 hx⟩
      | false =>
        obtain ⟨⟨f', hs, hi⟩, _⟩ := h2 hro
        exact ⟨_, _, _, rfl, .insertFailed hk hs, hi, h3 hl, fun _ hn => absurd hk hn⟩
  | find k =>
    simp only [Client.step]
    have := h.find hl (key := k) hop
    cases hf : c.map.find ks k with
    | error e => rw [hf] at this; cases this
    | ok o =>
      rw [hf, ok_bind] at this
      rw [ok_bind, this, ok_bind]
      exact ⟨_, _, f, rfl, .find, h, hl, fun hx _ => hx⟩
  | remove k =>
    simp only [Client.step]
    obtain ⟨m', hm, h1, h2, h3⟩ := h.remove hl (key := k) hop
    rw [hm, ok_bind]
    exact ⟨_, _, _, rfl, .remove, h1, h2, fun hx _ => h3 hx⟩
  | removeAt i =>
    simp only [Client.step]
    by_cases h0 : c.map.count = 0
    · rw [if_pos h0]
      exact ⟨_, _, f, rfl, .removeAtNone, h, hl, fun hx _ => hx⟩
    · rw [if_neg h0]
      rcases h.get i with ⟨k, v, hg, hkey, hk, hf⟩ | ⟨hg, hnone⟩ <;>
        rcases h.removeIndex (Nat.pos_of_ne_zero h0) i with ⟨k', m', hr, hkey', hk', h1, h2, h3⟩ | ⟨hr, hnone'⟩
      · rw [hg, ok_bind, hr, ok_bind]
        rw [hkey] at hkey'
        cases hkey'
        exact ⟨_, _, _, rfl, .removeAt (by rw [hf]; rfl), h1, h2 hl, fun hx _ => h3 hx⟩
      · exact absurd (hnone' k hkey) hk
      · exact absurd (hnone k' hkey') hk'
      · rw [hg, ok_bind, hr, ok_bind]
        exact ⟨_, _, f, rfl, .removeAtNone, h, hl, fun hx _ => hx⟩

/-- A whole history. -/
theorem run_good (mem : Nat → Bool) {fuel : Nat} (hfuel : 64 ≤ fuel) (ops : List (Op K V)) (c : Client K V) (f : Contents K V)
    (h : Inv ks c.map f) (hl : Low ks c.map) (hops : ∀ op ∈ ops, op.Proper ks.tomb) :
    ∃ seen c' f', c.run ks mem fuel ops = .ok (seen, c') ∧ Explained ks.tomb f ops seen f' ∧ Inv ks c'.map f' ∧ Low ks c'.map ∧
      (Exact ks c.map → (∀ x ∈ ops.zip seen, ¬ FailedInsert ks.tomb x) → Exact ks c'.map) := by
  induction ops generalizing c f with
  | nil => exact ⟨[], c, f, rfl, .nil, h, hl, fun hx _ => hx⟩
  | cons op ops ih =>
    obtain ⟨s, c1, f1, h1, h2, h3, h4, h5⟩ := step_good mem hfuel h hl (hops op List.mem_cons_self)
    obtain ⟨ss, c2, f2, g1, g2, g3, g4, g5⟩ := ih c1 f1 h3 h4 fun o ho => hops o (List.mem_cons_of_mem _ ho)
    refine ⟨s :: ss, c2, f2, ?_, .cons h2 g2, g3, g4, ?_⟩
    · rw [Client.run, h1, ok_bind, g1]; rfl
    · intro hx hn
      rw [List.zip_cons_cons] at hn
      exact g5 (h5 hx (hn _ List.mem_cons_self)) fun x hxm => hn x (List.mem_cons_of_mem _ hxm)

/-- The new map. -/
theorem fresh_good (ks : Keys K) (mem : Nat → Bool) (h : (Client.fresh ks mem : Client K V).map.hasData = true) :
    Inv ks (Client.fresh ks mem : Client K V).map Contents.empty ∧ Exact ks (Client.fresh ks mem : Client K V).map := by
  unfold Client.fresh Map.create at h ⊢
  split at h
  · split at h
    · rename_i h1 h2
      rw [if_pos h1, if_pos h2]
      exact blank_inv ks 4 (by omega) (by omega)
    · cases h
  · cases h

/-- Whatever the client does, the arrays stay in order. -/
theorem step_any {c c' : Client K V} {s : Seen K V} (mem : Nat → Bool) {fuel : Nat} (hfuel : 64 ≤ fuel) (h : Inv ks c.map f)
    (op : Op K V) (hs : c.step ks mem fuel op = .ok (s, c')) : ∃ f', Inv ks c'.map f' := by
  cases op with
  | insert k v =>
    simp only [Client.step] at hs
    by_cases hk : k = ks.tomb
    · subst hk
      unfold Tm.Hash.insert at hs
      rw [if_pos rfl, ok_bind] at hs
      cases hs
      exact ⟨f, h⟩
    · obtain ⟨r, hr, _, h1, h2, _⟩ := h.insert mem hfuel c.calls hk v
      rw [hr, ok_bind] at hs
      cases hs
      cases hro : r.ok with
      | true => exact ⟨_, (h1 hro).1⟩
      | false =>
        obtain ⟨⟨f', _, hi⟩, _⟩ := h2 hro
        exact ⟨f', hi⟩
  | find k =>
    simp only [Client.step] at hs
    cases hf : c.map.find ks k with
    | error e => rw [hf] at hs; cases hs
    | ok o =>
      rw [hf, ok_bind] at hs
      cases hr : readFound o with
      | error e => rw [hr] at hs; cases hs
      | ok v => rw [hr, ok_bind] at hs; cases hs; exact ⟨f, h⟩
  | remove k =>
    simp only [Client.step] at hs
    unfold Map.remove at hs
    unfold Map.findIndex at hs
    rw [h.check, ok_bind] at hs
    by_cases h0 : c.map.count = 0
    · rw [if_pos h0] at hs
      cases hs
      exact ⟨f, h⟩
    · rw [if_neg h0] at hs
      rcases h.findLoop (key := k) maxProbe 0 with ⟨p, j, a, _, _, _, e⟩ | ⟨a, _⟩
      · rw [a] at hs
        rw [ok_bind] at hs
        dsimp only at hs
        by_cases hk : k = ks.tomb
        · subst hk
          have hlt := (List.getElem?_eq_some_iff.mp e).1
          have hkeys : c.map.keys.set p ks.tomb = c.map.keys := by
            obtain ⟨h1, h2⟩ := List.getElem?_eq_some_iff.mp e
            rw [← h2]; exact List.set_getElem_self _
          unfold Map.clearSlot at hs
          rw [wr_lt _ hlt, ok_bind, wr_lt _ (by rw [h.vals]; exact hlt), ok_bind, if_neg h0, hkeys] at hs
          cases hs
          refine ⟨f, h.data, h.size, by simpa using h.vals, h.place, h.uniq, ?_, h.only, ?_⟩
          · intro q k hq hk
            obtain ⟨v, hv, hf⟩ := h.value q k hq hk
            refine ⟨v, ?_, hf⟩
            show (c.map.vals.set p none)[q]? = _
            rw [List.getElem?_set_ne]
            · exact hv
            · rintro rfl
              have hq : c.map.keys[p]? = some k := hq
              rw [e] at hq; cases hq; exact hk rfl
          · have := h.high
            show c.map.count - 1 ≤ c.map.keys.length
            omega
        · obtain ⟨m', hm, h1, _⟩ := h.clearSlot e hk (Nat.pos_of_ne_zero h0)
          rw [hm, ok_bind] at hs
          cases hs
          exact ⟨_, h1⟩
      · rw [a] at hs
        cases hs
        exact ⟨f, h⟩
  | removeAt i =>
    simp only [Client.step] at hs
    by_cases h0 : c.map.count = 0
    · rw [if_pos h0] at hs
      cases hs
      exact ⟨f, h⟩
    · rw [if_neg h0] at hs
      cases hg : c.map.get ks i with
      | error e => rw [hg] at hs; cases hs
      | ok o =>
        rw [hg, ok_bind] at hs
        rcases h.removeIndex (Nat.pos_of_ne_zero h0) i with ⟨k', m', hr, _, _, h1, _⟩ | ⟨hr, _⟩
        · rw [hr, ok_bind] at hs
          cases hs
          exact ⟨_, h1⟩
        · rw [hr, ok_bind] at hs
          cases hs
          exact ⟨f, h⟩

theorem run_any (mem : Nat → Bool) {fuel : Nat} (hfuel : 64 ≤ fuel) (ops : List (Op K V)) {c c' : Client K V} {seen : List (Seen K V)}
    {f : Contents K V} (h : Inv ks c.map f) (hr : c.run ks mem fuel ops = .ok (seen, c')) : ∃ f', Inv ks c'.map f' := by
  induction ops generalizing c f seen with
  | nil => cases hr; exact ⟨f, h⟩
  | cons op ops ih =>
    rw [Client.run] at hr
    cases hs : c.step ks mem fuel op with
    | error e => rw [hs] at hr; cases hr
    | ok a =>
      obtain ⟨s, c1⟩ := a
      rw [hs, ok_bind] at hr
      obtain ⟨f1, h1⟩ := step_any mem hfuel h op hs
      cases hb : c1.run ks mem fuel ops with
      | error e => rw [hb] at hr; cases hr
      | ok b =>
        obtain ⟨ss, c2⟩ := b
        rw [hb, ok_bind] at hr
        cases hr
        exact ih h1 hb

/-- The keys in use are the keys that have a value. -/
theorem Inv.hasSize (h : Inv ks m f) (hx : Exact ks m) : f.HasSize m.count := by
  refine ⟨m.keys.filter (fun k => decide (k ≠ ks.tomb)), ?_, ?_, ?_⟩
  · have : ∀ (l : List K), (∀ (p q : Nat) (k : K), l[p]? = some k → l[q]? = some k → k ≠ ks.tomb → p = q) →
        (l.filter (fun k => decide (k ≠ ks.tomb))).Nodup := by
      intro l
      induction l with
      | nil => intro _; exact List.nodup_nil
      | cons a l ih =>
        intro hu
        have ih' := ih fun p q k hp hq hk => by
          have := hu (p + 1) (q + 1) k (by simpa using hp) (by simpa using hq) hk
          omega
        by_cases ha : a = ks.tomb
        · rw [List.filter_cons_of_neg (by simpa using ha)]; exact ih'
        · rw [List.filter_cons_of_pos (by simpa using ha), List.nodup_cons]
          refine ⟨fun hm => ?_, ih'⟩
          obtain ⟨q, hq⟩ := List.mem_iff_getElem?.mp (List.mem_filter.mp hm).1
          have := hu 0 (q + 1) a rfl (by simpa using hq) ha
          omega
    exact this m.keys h.uniq
  · intro k
    rw [List.mem_filter]
    constructor
    · rintro ⟨hm, hk⟩
      obtain ⟨p, hp⟩ := List.mem_iff_getElem?.mp hm
      obtain ⟨v, _, hf⟩ := h.value p k hp (by simpa using hk)
      rw [hf]; rfl
    · intro hs
      obtain ⟨v, hv⟩ := Option.isSome_iff_exists.mp hs
      obtain ⟨hk, p, hp⟩ := h.only k v hv
      exact ⟨List.mem_of_getElem? hp, by simpa using hk⟩
  · rw [← List.countP_eq_length_filter]; exact hx.symm

end Tm.Hash
