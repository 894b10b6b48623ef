import Verif.Xml.SpaceLemmas

/-!
Texts for which every piece that is written has at most one byte.
-/

namespace Tm.Xml

/-- ASCII without numeric character references, and without carriage returns if newlines are turned into spaces one by one. -/
structure Narrow (f : Flags) (s : List Byte) : Prop where
  ascii : ∀ b ∈ s, b.toNat < 0x80
  noRef : ∀ p q, s ≠ p ++ 0x26 :: 0x23 :: q
  noCr : f.reduce = true ∨ f.newlines = false ∨ (0x0D : Byte) ∉ s

theorem Narrow.suffix {f : Flags} {s s' p : List Byte} (h : Narrow f s) (hp : s = p ++ s') : Narrow f s' where
  ascii b hb := h.ascii b (by rw [hp]; exact List.mem_append_right _ hb)
  noRef q r e := h.noRef (p ++ q) r (by rw [hp, e]; simp)
  noCr := h.noCr.imp id fun h => h.imp id fun h hm => h (by rw [hp]; exact List.mem_append_right _ hm)

/-- A step that writes at most one byte and is then at the beginning of a character again. -/
def Small (k : Core) (g : Unesc → C (Option Unesc)) : Prop :=
  (∀ u, u.core = k → g u = .ok none) ∨
  ∃ s bs last, bs.length ≤ 1 ∧ (∃ p, k.cur = p ++ s) ∧
    ∀ u, u.core = k → g u = .ok (some ((emit u bs).put (start s last)))

theorem Small.none (k : Core) : Small k fun _ => .ok none := .inl fun _ _ => rfl

theorem Small.emit (k : Core) (b : Byte) : Small k fun u => .ok (some (next (Tm.Xml.emit u [b]))) := by
  refine .inr ⟨k.cur, [b], k.last, by simp, ⟨[], rfl⟩, fun u hu => ?_⟩
  show Except.ok (some (next _)) = _
  rw [next_emit, hu, core_cur hu]; rfl

theorem Small.named (k : Core) (b : Byte) (n : Nat) : Small k fun u => Tm.Xml.named u b n := by
  refine .inr ⟨k.cur.drop n, [b], k.last, by simp, ⟨k.cur.take n, by simp⟩, fun u hu => ?_⟩
  unfold Tm.Xml.named next Unesc.put start
  simp [core_cur hu, core_last hu]

theorem Small.congr {k : Core} {g h : Unesc → C (Option Unesc)} (e : ∀ u, u.core = k → g u = h u) (hh : Small k h) :
    Small k g := by
  rcases hh with hh | ⟨s, bs, last, h1, h2, h3⟩
  · exact .inl fun u hu => (e u hu).trans (hh u hu)
  · exact .inr ⟨s, bs, last, h1, h2, fun u hu => (e u hu).trans (h3 u hu)⟩

theorem Small.ite {k : Core} {c : Prop} [Decidable c] {g h : Unesc → C (Option Unesc)} (hg : c → Small k g)
    (hh : ¬ c → Small k h) : Small k fun u => if c then g u else h u := by
  by_cases hc : c
  · simp only [hc, if_true]; exact hg hc
  · simp only [hc, if_false]; exact hh hc

theorem plain_small {f : Flags} {after : List Byte} {b : Byte} {s : List Byte} {last : Bool}
    (hn : Narrow f (b :: s)) : Small ⟨s, b :: s, last⟩ fun u => plain f after u b.toNat := by
  by_cases hv : validXml b.toNat = true
  · have hb : [b].length = 1 := rfl
    have key : ∀ u : Unesc, u.core = ⟨s, b :: s, last⟩ → plain f after u b.toNat =
        (placeCore f after ⟨s, b :: s, last⟩ b.toNat [b]).map fun p => some ((emit u p.2).put p.1) := by
      intro u hu
      unfold plain
      rw [if_pos hv, core_prev hu, core_cur hu]
      dsimp only
      rw [show List.take ((b :: s).length - s.length) (b :: s) = [b] by
        rw [List.length_cons, Nat.add_sub_cancel_left]; rfl, place_core, hu]
      cases placeCore f after ⟨s, b :: s, last⟩ b.toNat [b] <;> rfl
    refine Small.congr key ?_
    unfold placeCore
    have mk : ∀ (l : Bool) (bs : List Byte), bs.length ≤ 1 →
        Small ⟨s, b :: s, last⟩ fun u => Except.map (fun p : Core × List Byte => some ((emit u p.2).put p.1))
          (.ok (⟨s, s, l⟩, bs)) := fun l bs hl =>
      .inr ⟨s, bs, l, hl, ⟨[], rfl⟩, fun u _ => rfl⟩
    split
    · split
      · split
        · exact mk _ _ (by simp)
        · split
          · exact mk _ _ (by simp)
          · exact mk _ _ (by simp)
      · exact mk _ _ (by simp)
    · rename_i hr
      split
      · rename_i hl
        simp only [Bool.and_eq_true, Bool.or_eq_true, decide_eq_true_eq] at hl
        have hne : ¬ b.toNat = 0x0D := by
          intro e
          have hb : b = 0x0D := BitVec.eq_of_toNat_eq e
          rcases hn.noCr with h | h | h
          · exact hr h
          · rw [h] at hl; simp at hl
          · exact h (by rw [hb]; exact List.mem_cons_self)
        unfold newlineCore
        rw [if_neg (by simp [hne])]
        exact mk _ _ (by simp)
      · exact mk _ _ (by simp)
  · refine .inl fun u _ => ?_
    show plain f after u b.toNat = _
    unfold plain
    rw [if_neg hv]

theorem ampersand_small {f : Flags} {after : List Byte} {k : Core} (hk : ∀ q, k.cur ≠ 0x23 :: q) :
    Small k fun u => ampersand f after u := by
  refine Small.congr (h := fun u => if k.cur.isEmpty then .ok none
      else if k.cur.head? = some 0x23 then numeric f after u k.cur.tail
      else if [0x6C, 0x74, 0x3B].isPrefixOf k.cur then named u 0x3C 3
      else if [0x61, 0x6D, 0x70, 0x3B].isPrefixOf k.cur then named u 0x26 4
      else if [0x71, 0x75, 0x6F, 0x74, 0x3B].isPrefixOf k.cur then named u 0x22 5
      else if [0x61, 0x70, 0x6F, 0x73, 0x3B].isPrefixOf k.cur then named u 0x27 5
      else if [0x67, 0x74, 0x3B].isPrefixOf k.cur then named u 0x3E 3
      else if k.cur.contains 0x3B then .ok (some (next (emit u [0x26])))
      else .ok none) (fun u hu => by unfold ampersand; simp only [core_cur hu]) ?_
  refine Small.ite (fun _ => Small.none k) fun _ => ?_
  refine Small.ite (fun h => ?_) fun _ => ?_
  · exfalso
    cases hc : k.cur with
    | nil => rw [hc] at h; simp at h
    | cons b q => rw [hc] at h; simp at h; subst h; exact hk q hc
  refine Small.ite (fun _ => Small.named k _ _) fun _ => ?_
  refine Small.ite (fun _ => Small.named k _ _) fun _ => ?_
  refine Small.ite (fun _ => Small.named k _ _) fun _ => ?_
  refine Small.ite (fun _ => Small.named k _ _) fun _ => ?_
  refine Small.ite (fun _ => Small.named k _ _) fun _ => ?_
  exact Small.ite (fun _ => Small.emit k _) fun _ => Small.none k

theorem unescStep_small {f : Flags} {after : List Byte} {b : Byte} {s : List Byte} {last : Bool}
    (hn : Narrow f (b :: s)) : Small ⟨s, b :: s, last⟩ fun u => unescStep f after u b.toNat := by
  refine Small.congr (h := fun u => if b.toNat = 0 then .ok none
      else if b.toNat = 0x26 then ampersand f after u
      else if b.toNat = 0x3C then
        if !f.comment then .ok none else .ok (some (next (emit u [0x3C])))
      else if b.toNat = 0x5D then
        if !f.comment && [0x5D, 0x3E].isPrefixOf s then .ok none else .ok (some (next (emit u [0x5D])))
      else plain f after u b.toNat) (fun u hu => by unfold unescStep; simp only [core_cur hu]) ?_
  refine Small.ite (fun _ => Small.none _) fun _ => ?_
  refine Small.ite (fun h => ?_) fun _ => ?_
  · refine ampersand_small fun q hq => ?_
    have hb : b = 0x26 := BitVec.eq_of_toNat_eq h
    exact hn.noRef [] q (by rw [hb]; show 0x26 :: s = _; rw [show s = 0x23 :: q from hq]; rfl)
  refine Small.ite (fun _ => Small.ite (fun _ => Small.none _) fun _ => Small.emit _ _) fun _ => ?_
  refine Small.ite (fun _ => Small.ite (fun _ => Small.none _) fun _ => Small.emit _ _) fun _ => ?_
  exact plain_small hn

theorem cdataStep_small {f : Flags} {after : List Byte} {b : Byte} {s : List Byte} {last : Bool}
    (hn : Narrow f (b :: s)) : Small ⟨s, b :: s, last⟩ fun u => cdataStep f after u b.toNat := by
  refine Small.congr (h := fun u => if b.toNat = 0 then .ok none
      else if b.toNat = 0x5D then
        if [0x5D, 0x3E].isPrefixOf s then .ok none else .ok (some (next (emit u [0x5D])))
      else plain f after u b.toNat) (fun u hu => by unfold cdataStep; simp only [core_cur hu]) ?_
  refine Small.ite (fun _ => Small.none _) fun _ => ?_
  refine Small.ite (fun _ => Small.ite (fun _ => Small.none _) fun _ => Small.emit _ _) fun _ => ?_
  exact plain_small hn

theorem runs_small {f : Flags} {step : Unesc → Nat → C (Option Unesc)}
    (hs : ∀ (b : Byte) (s : List Byte) (last : Bool), Narrow f (b :: s) →
      Small ⟨s, b :: s, last⟩ fun u => step u b.toNat) :
    ∀ (n : Nat) (s : List Byte) (last : Bool), s.length ≤ n → Narrow f s →
      ∃ o ps, Runs step (start s last) o ps ∧ ps.length ≤ s.length ∧ ∀ p ∈ ps, p.length ≤ 1 := by
  intro n
  induction n with
  | zero =>
    intro s last hl _
    have : s = [] := List.length_eq_zero_iff.mp (by omega)
    subst this
    exact ⟨_, [], Runs.stop _ extract_nil, by simp, by simp⟩
  | succ n ih =>
    intro s last hl hn
    cases s with
    | nil => exact ⟨_, [], Runs.stop _ extract_nil, by simp, by simp⟩
    | cons b s =>
      have he := extract_ascii (hn.ascii b List.mem_cons_self) s
      rcases hs b s last hn with h | ⟨s', bs, last', h1, ⟨p, hp⟩, h3⟩
      · exact ⟨.failed, [], .fail _ _ s he h, by simp, by simp⟩
      · have hp : s = p ++ s' := hp
        have hlen : s.length = p.length + s'.length := by rw [hp, List.length_append]
        simp only [List.length_cons] at hl
        obtain ⟨o, ps, r1, r2, r3⟩ := ih s' last' (by omega) (hn.suffix (p := b :: p) (by rw [hp]; rfl))
        refine ⟨o, bs :: ps, .step _ _ s (start s' last') bs o ps he h3 r1, by simp only [List.length_cons]; omega, ?_⟩
        intro q hq
        rcases List.mem_cons.mp hq with rfl | hq
        · exact h1
        · exact r3 q hq

end Tm.Xml
