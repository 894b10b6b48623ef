import Verif.Vec.Grow

/-! # Insertion -/

namespace Tm.Vec

open Tm

variable {α : Type}

/-- What an operation gives: no fault, the elements as intended or as left by a failure, success if the heap grants every request or
if there was room, and in the latter case no change of the storage. A static vector stays where it is. -/
def Good (c : Cfg) (M : Nat) (rest : List Nat) (h : Heap) (v : Vec α) (lok lfail : List (Option α)) (need : Nat) (r : C (Heap × Vec α × Bool)) : Prop :=
  ∃ h' v' ok, r = .ok (h', v', ok) ∧ Inv c M rest h' v' (if ok then lok else lfail) ∧ h'.ok = h.ok ∧
    (c.fixed = false → (∀ k, h.ok k = true) → ok = true) ∧
    (need ≤ v.cap → ok = true ∧ h' = h ∧ v'.ptr = v.ptr ∧ v'.cap = v.cap) ∧
    (c.fixed = true → ok = true → v'.ptr = v.ptr ∧ v'.cap = v.cap)

theorem inserted_get (l : List (Option α)) {pos : Nat} (xs : List (Option α)) (hp : pos ≤ l.length) (i : Nat) :
    (inserted l pos xs)[i]? = if i < pos then l[i]? else if i < pos + xs.length then xs[i - pos]? else l[i - xs.length]? := by
  unfold inserted
  rw [List.append_assoc]
  by_cases h1 : i < pos
  · rw [if_pos h1, List.getElem?_append_left (by rw [List.length_take]; omega), List.getElem?_take, if_pos h1]
  · rw [if_neg h1, List.getElem?_append_right (by rw [List.length_take]; omega), List.length_take, Nat.min_eq_left hp]
    by_cases h2 : i < pos + xs.length
    · rw [if_pos h2, List.getElem?_append_left (by omega)]
    · rw [if_neg h2, List.getElem?_append_right (by omega), List.getElem?_drop]
      congr 1
      omega

theorem inserted_length (l : List (Option α)) {pos : Nat} (xs : List (Option α)) (hp : pos ≤ l.length) : (inserted l pos xs).length = l.length + xs.length := by
  unfold inserted
  rw [List.length_append, List.length_append, List.length_take, List.length_drop]
  omega

theorem inserted_end (l : List (Option α)) (xs : List (Option α)) : inserted l l.length xs = l ++ xs := by
  unfold inserted
  rw [List.take_length, List.drop_length, List.append_nil]

/-- The room in the storage, from `pos` on, is `n` elements wide: those before `fu` are objects. -/
structure Gap (c : Cfg) (old new : Mem α) (L pos fu n : Nat) : Prop where
  len : new.len = old.len
  lo : pos ≤ fu
  hi : fu ≤ pos + n
  below : ∀ k, k < pos → new.cell k = old.cell k
  above : ∀ k, pos ≤ k → k < L → new.cell (k + n) = old.cell k
  objs : c.triv = false → ∀ k, pos ≤ k → k < fu → ∃ y, new.cell k = .obj y
  raws : c.triv = false → ∀ k, fu ≤ k → k < pos + n → new.cell k = .raw
  rest : c.triv = false → ∀ k, L + n ≤ k → new.cell k = .raw

theorem shift_ok {c : Cfg} (hc : c.triv = false) (m : Mem α) {L pos n : Nat} (hp : pos < L) (hn : 1 ≤ n) (hl : L + n ≤ m.len)
    (ho : ∀ k, k < L → ∃ y, m.cell k = .obj y) (hr : ∀ k, L ≤ k → m.cell k = .raw) :
    ∃ m1 m2, roomConstruct c (min n (L - pos)) m L (L + n) = .ok m1 ∧
      roomAssign c (L - pos - n) m1 (L - min n (L - pos)) (L + n - min n (L - pos)) = .ok m2 ∧ Gap c m m2 L pos (pos + min n (L - pos)) n := by
  obtain ⟨m1, f1, f2, f3, f4, f5⟩ := roomConstruct_ok hc (min n (L - pos)) m L (L + n) (by omega) (by omega) (by omega)
    (fun k a b => ho k (by omega)) (fun k a b => hr k (by omega))
  by_cases hns : n ≤ L - pos
  · rw [Nat.min_eq_left hns] at *
    obtain ⟨m2, g1, g2, g3, g4, g5⟩ := roomAssign_ok hc (L - pos - n) m1 (L - n) (L + n - n)
      (by omega) (by omega) (by omega) (fun k a b => by
        by_cases hy : L - n ≤ k
        · exact f4 k hy (by omega)
        · rw [f5 k (by omega)]
          exact ho k (by omega))
    refine ⟨m1, m2, f1, g1, g2.trans f2, by omega, by omega, fun k hk => ?_, fun k hk1 hk2 => ?_, fun _ k hk1 hk2 => g4 k (by omega) (by omega),
      fun _ k hk1 hk2 => by omega, fun _ k hk => ?_⟩
    · rw [g5 k (by omega), f5 k (by omega)]
    · by_cases hx : L - n ≤ k
      · rw [g5 _ (by omega), f3 _ (by omega) (by omega)]
        congr 1
        omega
      · rw [g3 _ (by omega) (by omega), f5 _ (by omega)]
        congr 1
        omega
    · rw [g5 k (by omega), f5 k (by omega)]
      exact hr k (by omega)
  · rw [Nat.min_eq_right (by omega)] at *
    rw [show L - pos - n = 0 from by omega]
    refine ⟨m1, m1, f1, rfl, f2, by omega, by omega, fun k hk => f5 k (by omega), fun k hk1 hk2 => ?_, fun _ k hk1 hk2 => f4 k (by omega) (by omega),
      fun _ k hk1 hk2 => ?_, fun _ k hk => ?_⟩
    · rw [f3 _ (by omega) (by omega)]
      congr 1
      omega
    · rw [f5 k (by omega)]
      exact hr k (by omega)
    · rw [f5 k (by omega)]
      exact hr k (by omega)

theorem makeRoom_ok {c : Cfg} {M : Nat} {rest : List Nat} {h : Heap} {v : Vec α} {l : List (Option α)} (ha : Addressable c M) (i : Inv c M rest h v l)
    {pos n : Nat} (hpos : pos ≤ l.length) (hn : 1 ≤ n) (hb : l.length + n ≤ M) :
    ∃ h' v' r, makeRoom c h v pos n = .ok (h', v', r) ∧ h'.ok = h.ok ∧ (c.fixed = false → (∀ k, h.ok k = true) → r ≠ none) ∧
      (l.length + n ≤ v.cap → r ≠ none ∧ h' = h ∧ v'.ptr = v.ptr ∧ v'.cap = v.cap) ∧
      (c.fixed = true → v'.ptr = v.ptr ∧ v'.cap = v.cap) ∧
      (r = none → Inv c M rest h' v' l) ∧
      (∀ fi fu, r = some (fi, fu) → fi = pos ∧ ∃ w m, Inv c M rest h' w l ∧ l.length + n ≤ w.cap ∧ v' = { w with mem := m, sz := l.length + n } ∧
        Gap c w.mem m l.length pos fu n) := by
  obtain ⟨h', w, ok, e1, e2, e3, e4, e5, e6, e7, e8⟩ := growBy_ok ha i hb (by omega)
  unfold makeRoom
  rw [assert_ok (by rw [i.size]; exact hpos), ok_bind, e1, ok_bind]
  have hstay : l.length + n ≤ v.cap → ok = true ∧ h' = h ∧ w = v := fun hc => e7 (Or.inl (by omega)) hc
  cases ok with
  | false =>
    exact ⟨_, _, _, rfl, e3, fun a b => absurd (e6 a b) (by simp), fun hc => absurd (hstay hc).1 (by simp),
      fun h0 => ⟨by rw [(e8 h0).2], by rw [(e8 h0).2]⟩, fun _ => e2, nofun⟩
  | true =>
    dsimp only
    rw [if_neg (by simp)]
    have hcap := (e5 rfl).1
    have hsz := e2.size
    have hlen := e2.len
    by_cases htr : c.triv = true
    · have hnt : ∀ {p : Prop}, c.triv = false → p := fun h0 => absurd htr (by rw [h0]; simp)
      rw [if_pos htr]
      by_cases hs : w.sz - pos ≠ 0
      · rw [if_pos hs]
        obtain ⟨m, f1, f2, f3⟩ := memmove_ok w.mem (pos + n) pos (w.sz - pos) (by omega) (by omega)
        rw [f1, ok_bind]
        refine ⟨_, _, _, rfl, e3, fun _ _ => by simp, fun hc => ?_, fun h0 => ⟨by rw [(e8 h0).2], by rw [(e8 h0).2]⟩, nofun, fun fi fu hr => ?_⟩
        · obtain ⟨_, a, b⟩ := hstay hc
          exact ⟨by simp, a, by rw [b], by rw [b]⟩
        · injection hr with hr
          injection hr with hr1 hr2
          subst hr1 hr2
          refine ⟨rfl, w, m, e2, hcap, by rw [hsz], f2, by omega, Nat.le_refl _, fun k hk => ?_, fun k hk1 hk2 => ?_, hnt, hnt, hnt⟩
          · rw [f3, if_neg (by omega)]
          · rw [f3, if_pos (by omega)]
            congr 1
            omega
      · rw [if_neg hs, ok_bind]
        refine ⟨_, _, _, rfl, e3, fun _ _ => by simp, fun hc => ?_, fun h0 => ⟨by rw [(e8 h0).2], by rw [(e8 h0).2]⟩, nofun, fun fi fu hr => ?_⟩
        · obtain ⟨_, a, b⟩ := hstay hc
          exact ⟨by simp, a, by rw [b], by rw [b]⟩
        · injection hr with hr
          injection hr with hr1 hr2
          subst hr1 hr2
          exact ⟨rfl, w, w.mem, e2, hcap, by rw [hsz], rfl, by omega, Nat.le_refl _, fun k hk => rfl, fun k hk1 hk2 => by omega, hnt, hnt, hnt⟩
    · have htr' : c.triv = false := by simpa using htr
      rw [if_neg htr]
      have hraw := e2.has.raw htr'
      by_cases hs : w.sz - pos ≠ 0
      · rw [if_pos hs]
        obtain ⟨m1, m2, f1, g1, g⟩ := shift_ok htr' w.mem (L := w.sz) (pos := pos) (n := n) (by omega) hn (by omega)
          (fun k a => e2.has.exists_obj (by omega)) (fun k a => hraw k (by omega))
        rw [f1, ok_bind, g1, ok_bind]
        refine ⟨_, _, _, rfl, e3, fun _ _ => by simp, fun hc => ?_, fun h0 => ⟨by rw [(e8 h0).2], by rw [(e8 h0).2]⟩, nofun, fun fi fu hr => ?_⟩
        · obtain ⟨_, a, b⟩ := hstay hc
          exact ⟨by simp, a, by rw [b], by rw [b]⟩
        · injection hr with hr
          injection hr with hr1 hr2
          subst hr1 hr2
          exact ⟨rfl, w, m2, e2, hcap, by rw [hsz], hsz ▸ g⟩
      · rw [if_neg hs]
        refine ⟨_, _, _, rfl, e3, fun _ _ => by simp, fun hc => ?_, fun h0 => ⟨by rw [(e8 h0).2], by rw [(e8 h0).2]⟩, nofun, fun fi fu hr => ?_⟩
        · obtain ⟨_, a, b⟩ := hstay hc
          exact ⟨by simp, a, by rw [b], by rw [b]⟩
        · injection hr with hr
          injection hr with hr1 hr2
          subst hr1 hr2
          exact ⟨rfl, w, w.mem, e2, hcap, by rw [hsz], rfl, Nat.le_refl _, by omega, fun k hk => rfl, fun k hk1 hk2 => by omega, fun _ k _ _ => by omega,
            fun _ k hk1 hk2 => hraw k (by omega), fun _ k hk => hraw k (by omega)⟩

theorem putAll_ok {c : Cfg} {old m : Mem α} {l xs : List (Option α)} {pos fu : Nat} (ho : Has c old l) (hpos : pos ≤ l.length)
    (hl : l.length + xs.length ≤ m.len) (g : Gap c old m l.length pos fu xs.length) :
    ∃ m', putAll c m pos fu xs = .ok m' ∧ m'.len = m.len ∧ Has c m' (inserted l pos xs) := by
  have hlo := g.lo
  have hhi := g.hi
  unfold putAll
  obtain ⟨m1, e1, e2, e3, e4⟩ := assignList_ok c (xs.take (fu - pos)) m pos (by rw [List.length_take]; omega) (fun hc k a b => by
    rw [List.length_take] at b
    exact g.objs hc k a (by omega))
  rw [e1, ok_bind]
  rw [List.length_take] at e4
  obtain ⟨m2, f1, f2, f3, f4⟩ := constructList_ok c (xs.drop (fu - pos)) m1 fu (by rw [List.length_drop]; omega) (fun hc k a b => by
    rw [List.length_drop] at b
    rw [e4 k (by omega)]
    exact g.raws hc k a (by omega))
  rw [List.length_drop] at f4
  refine ⟨m2, f1, f2.trans e2, fun k x hk => ?_, fun hc k hk => ?_⟩
  · rw [inserted_get l xs hpos] at hk
    by_cases h1 : k < pos
    · rw [if_pos h1] at hk
      rw [f4 k (by omega), e4 k (by omega), g.below k h1]
      exact ho.obj k x hk
    · rw [if_neg h1] at hk
      by_cases h2 : k < pos + xs.length
      · rw [if_pos h2] at hk
        by_cases h3 : k < fu
        · rw [f4 k (by omega)]
          have := e3 (k - pos) x (by rw [List.getElem?_take, if_pos (by omega)]; exact hk)
          rwa [show pos + (k - pos) = k from by omega] at this
        · have := f3 (k - fu) x (by
            rw [List.getElem?_drop, show fu - pos + (k - fu) = k - pos from by omega]
            exact hk)
          rwa [show fu + (k - fu) = k from by omega] at this
      · rw [if_neg h2] at hk
        have hlt := (List.getElem?_eq_some_iff.mp hk).1
        have := g.above (k - xs.length) (by omega) hlt
        rw [f4 k (by omega), e4 k (by omega), ← ho.obj _ x hk, ← this]
        congr 1
        omega
  · rw [inserted_length l xs hpos] at hk
    rw [f4 k (by omega), e4 k (by omega)]
    exact g.rest hc k hk

theorem insertAll_ok {c : Cfg} {M : Nat} {rest : List Nat} {h : Heap} {v : Vec α} {l : List (Option α)} (ha : Addressable c M) (i : Inv c M rest h v l)
    {pos : Nat} (hpos : pos ≤ l.length) {xs : List (Option α)} (hn : 1 ≤ xs.length) (hb : l.length + xs.length ≤ M) :
    Good c M rest h v (inserted l pos xs) l (l.length + xs.length) (insertAll c h v pos xs) := by
  obtain ⟨h', v', r, e1, e2, e3, e4, e7, e5, e6⟩ := makeRoom_ok ha i hpos hn hb
  unfold insertAll
  rw [e1, ok_bind]
  cases r with
  | none => exact ⟨_, _, _, rfl, e5 rfl, e2, fun a b => absurd rfl (e3 a b), fun hc => absurd rfl (e4 hc).1, nofun⟩
  | some p =>
    obtain ⟨fi, fu⟩ := p
    obtain ⟨hfi, w, m, hw, hcap, hv', g⟩ := e6 fi fu rfl
    subst hfi hv'
    have := hw.len
    obtain ⟨m', f1, f2, f3⟩ := putAll_ok hw.has hpos (by rw [g.len]; omega) g
    dsimp only
    rw [f1, ok_bind]
    have hle := inserted_length l xs hpos
    exact ⟨_, _, _, rfl, hw.update f3 (f2.trans g.len) (show (inserted l fi xs).length ≤ _ by rw [hle]; exact hcap) hle.symm, e2, fun _ _ => rfl, fun hc => ⟨rfl, (e4 hc).2⟩, fun h0 _ => e7 h0⟩

end Tm.Vec
