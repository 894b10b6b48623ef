import Verif.Cli.Lemmas

/-! # What is done with an option that was found -/

namespace Tm.Cli

/-- A call that ends in an error: one message is written if there is a log. -/
structure Failed (p₀ p : Parser) : Prop where
  argv : p.argv = p₀.argv
  options : p.options = p₀.options
  error : p.error = true
  log : ∃ m, p.log = if p₀.hasLog then p₀.log ++ [m] else p₀.log
  le : p.current ≤ p.argv.length

theorem Base.failed {p₀ ps p} (h : Base p₀ ps p) (m : Msg) : Failed p₀ (p.fail m) := by
  refine ⟨h.argv, h.options, rfl, ⟨m, ?_⟩, h.le⟩
  simp only [Parser.fail, h.hasLog, h.log]

/-- What follows the name of an option, the words behind it, the argument, and what is left of both. -/
inductive Arg (isShort : Bool) (o : Opt) : Str → List Str → Option Str → Str → List Str → Prop
  | group (b : Byte) (t : Str) (ws : List Str) : isShort = true → o.arg = .none → Letter b → Arg isShort o (b :: t) ws none (b :: t) ws
  | none (ws : List Str) : NoneAhead ws → Arg isShort o [] ws none [] ws
  | next (v : Str) (ws : List Str) : o.arg ≠ .none → ¬ Dashed v → Arg isShort o [] (v :: ws) (some v) [] ws
  | eq (v : Str) (ws : List Str) : o.arg ≠ .none → Arg isShort o (0x3D :: v) ws (some v) [] ws
  | glued (b : Byte) (v : Str) (ws : List Str) : o.arg ≠ .none → b ≠ 0x3D → NoneAhead ws →
    Arg isShort o (b :: v) ws (some (b :: v)) [] ws

theorem Arg.unique {s o cur ws a t w a' t' w'} (h : Arg s o cur ws a t w) (h' : Arg s o cur ws a' t' w') :
    a = a' ∧ t = t' ∧ w = w' := by
  cases h with
  | group b t ws h1 h2 h3 =>
    cases h' with
    | group => exact ⟨rfl, rfl, rfl⟩
    | eq v ws h => exact absurd h2 h
    | glued b v ws h => exact absurd h2 h
  | none ws h =>
    cases h' with
    | none => exact ⟨rfl, rfl, rfl⟩
    | next v ws h1 h2 => exact absurd (h _ _ rfl) h2
  | next v ws h1 h2 =>
    cases h' with
    | none ws h => exact absurd (h _ _ rfl) h2
    | next => exact ⟨rfl, rfl, rfl⟩
  | eq v ws h =>
    cases h' with
    | group b t ws h1 h2 h3 => exact absurd h2 h
    | eq => exact ⟨rfl, rfl, rfl⟩
    | glued b v ws h1 h2 => exact absurd rfl h2
  | glued b v ws h h2 h3 =>
    cases h' with
    | group b t ws h1 h2 h3 => exact absurd h2 h
    | eq => exact absurd rfl h2
    | glued => exact ⟨rfl, rfl, rfl⟩

theorem output_eq (m : Mem) (o : Opt) : output m o = change m o.output (outputOf o) := by
  unfold output change outputOf
  funext x
  cases o.output with
  | none => simp
  | some a =>
    by_cases hx : x = a
    · subst hx; cases o.outType <;> simp
    · have hx' : ¬ a = x := fun h => hx h.symm
      cases o.outType <;> simp [hx, hx']

theorem count_eq (m : Mem) (o : Opt) : count m o = change m o.counter (· + 1) := by
  unfold count change
  funext x
  cases o.counter with
  | none => simp
  | some a =>
    by_cases hx : x = a
    · subst hx; simp
    · have hx' : ¬ a = x := fun h => hx h.symm
      simp [hx, hx']

/-- What is done when an option was found, before its argument is looked for. -/
theorem mark_spec {p₀ ps p} (h : Base p₀ ps p) {i : Nat} {o : Opt} (hi : i < 128) :
    (∃ p', mark p i o = .ok (true, p') ∧ (∀ m, Failed p₀ (p'.fail m)) ∧ (∃ q ∈ ps, q.option = some i) ∧ ¬ Again o p.mem) ∨
    (∃ g, mark p i o = .ok (false, { p with mem := change p.mem o.counter (· + 1), given := g }) ∧ g.length = 4 ∧
      (∀ j, j < 128 → (bit g j = true ↔ (∃ q ∈ ps, q.option = some j) ∨ j = i)) ∧
      ((∃ q ∈ ps, q.option = some i) → Again o p.mem)) := by
  have hg : (∃ q ∈ ps, q.option = some i) ↔ bit p.given i = true := (h.given i hi).symm
  have hb : (p.given.getD (i / 32) 0 &&& 1#32 <<< (i % 32) ≠ 0) ↔ bit p.given i = true := and_flag _ _ (by omega)
  have hag : (o.max = 0 ∨ o.max = 1 ∨ (0 < o.max ∧ o.max < ((counterOf (count p.mem o) o).toNat : Int))) ↔ ¬ Again o p.mem := by
    unfold Again counterOf count
    cases hc : o.counter with
    | none =>
      have h0 : (0 : BitVec 32).toNat = 0 := rfl
      simp only [h0, reduceCtorEq, false_implies, implies_true, and_true]
      omega
    | some a =>
      simp only [if_true, Option.some.injEq, forall_eq']
      omega
  unfold mark
  rw [flagPair_ok hi]
  simp only [ok_bind]
  rw [rd_given h.length hi]
  simp only [ok_bind]
  by_cases hcond : bit p.given i = true ∧ ¬ Again o p.mem
  · left
    rw [if_pos ⟨hb.2 hcond.1, hag.2 hcond.2⟩]
    have hf : ∀ m, Failed p₀ (Parser.fail { p with mem := count p.mem o } m) := by
      intro m
      refine ⟨h.argv, h.options, rfl, ⟨m, ?_⟩, h.le⟩
      simp only [Parser.fail, h.hasLog, h.log]
    exact ⟨_, rfl, hf, hg.2 hcond.1, hcond.2⟩
  · right
    rw [if_neg (fun hh => hcond ⟨hb.1 hh.1, hag.1 hh.2⟩)]
    rw [← count_eq]
    refine ⟨_, rfl, by rw [List.length_set]; exact h.length, ?_, ?_⟩
    · intro j hj
      rw [bit_set h.length hi j, Bool.or_eq_true, decide_eq_true_eq, h.given j hj]
    · intro hq
      apply Classical.byContradiction
      intro hn
      exact hcond ⟨hg.1 hq, hn⟩

theorem checkArg_ok {p : Parser} {i : Nat} {o : Opt} {n : Str} {f h : Bool} {arg : Option Str} (hc : ∀ a, arg = some a → CString a)
    (hfh : ¬ (h = true ∧ f = true)) (hfit : Fits o arg) :
    checkArg p i o (some n) f h arg = accept p i arg := by
  unfold checkArg
  cases arg with
  | none =>
    rw [if_neg (fun hh => nomatch hh.2), if_neg hfh, if_neg (fun hh => hfit hh.1)]
  | some a =>
    obtain ⟨h1, h2, h3⟩ := hfit
    rw [if_neg (fun hh => h1 hh.1), if_neg hfh, if_neg (fun hh => h2 hh.1 ((deref_zero (hc a rfl)).1 hh.2))]
    cases hv : o.validator with
    | none => rfl
    | some v => simp only [h3 v hv, if_true]

theorem checkArg_fail {p : Parser} {i : Nat} {o : Opt} {n : Str} {f h : Bool} {arg : Option Str} (hc : ∀ a, arg = some a → CString a)
    (hno : (h = true ∧ f = true) ∨ ¬ Fits o arg) :
    ∃ m, checkArg p i o (some n) f h arg = .ok (none, p.fail m) := by
  unfold checkArg
  by_cases h1 : o.arg = .none ∧ arg.isSome
  · rw [if_pos h1]; exact ⟨_, rfl⟩
  · rw [if_neg h1]
    by_cases h2 : h = true ∧ f = true
    · rw [if_pos h2]; exact ⟨_, rfl⟩
    · rw [if_neg h2]
      by_cases h3 : o.arg = .required ∧ deref (arg.getD []) = 0
      · rw [if_pos h3]; exact ⟨_, rfl⟩
      · rw [if_neg h3]
        have hnf : ¬ Fits o arg := hno.resolve_left h2
        cases arg with
        | none => exact absurd (fun hr => h3 ⟨hr, rfl⟩) hnf
        | some a =>
          cases hv : o.validator with
          | none =>
            refine absurd ⟨fun hr => h1 ⟨hr, rfl⟩, fun hr ha => h3 ⟨hr, by rw [ha]; rfl⟩, ?_⟩ hnf
            intro f hf
            rw [hv] at hf
            exact nomatch hf
          | some v =>
            simp only
            by_cases hva : v a = true
            · refine absurd ⟨fun hr => h1 ⟨hr, rfl⟩, fun hr ha => h3 ⟨hr, by rw [ha]; rfl⟩, ?_⟩ hnf
              intro f hf
              rw [hv] at hf
              cases hf
              exact hva
            · rw [if_neg hva]; exact ⟨_, rfl⟩

/-- The words that were not read, and those behind the next one. -/
theorem words_cases (p : Parser) : (p.words = [] ∧ ¬ p.current < p.argv.length) ∨
    ∃ w ws, p.words = w :: ws ∧ p.current < p.argv.length ∧ rd p.argv p.current = .ok w ∧
      Parser.words { p with current := p.current + 1 } = ws ∧ w ∈ p.argv := by
  by_cases h : p.current < p.argv.length
  · right
    refine ⟨p.argv[p.current], p.argv.drop (p.current + 1), List.drop_eq_getElem_cons h, h, ?_, rfl, List.getElem_mem h⟩
    rw [rd, List.getElem?_eq_getElem h]
  · exact Or.inl ⟨List.drop_eq_nil_of_le (by omega), h⟩

theorem noneAhead_nil : NoneAhead [] := fun _ _ h => nomatch h

theorem noneAhead_cons {w : Str} {ws : List Str} : NoneAhead (w :: ws) ↔ Dashed w :=
  ⟨fun h => h w ws rfl, fun h _ _ he => by cases he; exact h⟩

/-- A parser after an option without its argument. -/
theorem accept_inv {p₀ : Parser} {ps : List Parsed} {p : Parser} {i : Nat} {arg : Option Str}
    (hb : Base p₀ (ps ++ [⟨some i, arg⟩]) p) (hs : arg = none → (∀ t, p.currentArg = some t → CString t ∧ (∀ u, t ≠ 0x2D :: u) ∧ (t = [] → NoneAhead p.words))) :
    ∃ p', accept p i arg = .ok (some ⟨some i, arg⟩, p') ∧ Inv p₀ (ps ++ [⟨some i, arg⟩]) p' ∧
      p'.text = (if arg.isSome then [] else p.text) ∧ p'.words = p.words := by
  refine ⟨_, rfl, ?_⟩
  cases arg with
  | some a =>
    refine ⟨⟨⟨hb.argv, hb.options, hb.free, hb.hasLog, hb.log, hb.error, hb.mem, hb.length, hb.given, hb.le⟩, ?_, ?_, ?_⟩, rfl, rfl⟩
    · exact fun h => nomatch h
    · exact fun t h => nomatch h
    · exact fun h => nomatch h
  | none =>
    have hs := hs rfl
    refine ⟨⟨⟨hb.argv, hb.options, hb.free, hb.hasLog, hb.log, hb.error, hb.mem, hb.length, hb.given, hb.le⟩, ?_, ?_, ?_⟩, rfl, rfl⟩
    · show CString (p.currentArg.getD [])
      cases hc : p.currentArg with
      | none => exact fun h => nomatch h
      | some t => exact (hs t hc).1
    · show ∀ t, p.currentArg.getD [] ≠ 0x2D :: t
      cases hc : p.currentArg with
      | none => exact fun t h => nomatch h
      | some t => exact (hs t hc).2.1
    · intro hc
      exact (hs [] hc).2.2 rfl

theorem Base.skip {p₀ ps p} (h : Base p₀ ps p) (hlt : p.current < p.argv.length) : Base p₀ ps { p with current := p.current + 1 } :=
  ⟨h.argv, h.options, h.free, h.hasLog, h.log, h.error, h.mem, h.length, h.given, hlt⟩

/-- Looking for an argument: what is delivered, or an error when nothing may be. -/
theorem parseArg_spec {p₀ : Parser} {ps : List Parsed} {p : Parser} {i : Nat} {o : Opt} {n cur : Str} {isShort : Bool}
    (hb : ∀ arg, Base p₀ (ps ++ [⟨some i, arg⟩]) p) (hcur : p.currentArg = if isShort then some cur else none) (hc : CString cur)
    (hw : ∀ w ∈ p.argv, CString w) (hgrp : isShort = true → cur ≠ [] → o.arg ≠ .none) :
    (∃ arg p', parseArg p i o (some n) cur = .ok (some ⟨some i, arg⟩, p') ∧ Inv p₀ (ps ++ [⟨some i, arg⟩]) p' ∧
      Arg isShort o cur p.words arg p'.text p'.words ∧ Fits o arg) ∨
    (∃ p', parseArg p i o (some n) cur = .ok (none, p') ∧ Failed p₀ p' ∧ ¬ ∃ arg t w, Arg isShort o cur p.words arg t w ∧ Fits o arg) := by
  have hskip : ∀ arg, p.current < p.argv.length → Base p₀ (ps ++ [⟨some i, arg⟩]) { p with current := p.current + 1 } :=
    fun arg h => (hb arg).skip h
  cases cur with
  | nil =>
    have hA : ∀ ws, p.words = ws → NoneAhead ws → parseArg p i o (some n) [] = checkArg p i o (some n) false false none →
      (∃ arg p', parseArg p i o (some n) [] = .ok (some ⟨some i, arg⟩, p') ∧ Inv p₀ (ps ++ [⟨some i, arg⟩]) p' ∧
        Arg isShort o [] p.words arg p'.text p'.words ∧ Fits o arg) ∨
      (∃ p', parseArg p i o (some n) [] = .ok (none, p') ∧ Failed p₀ p' ∧ ¬ ∃ arg t w, Arg isShort o [] p.words arg t w ∧ Fits o arg) := by
      intro ws hws hna he
      have harg : Arg isShort o [] p.words none [] p.words := .none _ (hws ▸ hna)
      by_cases hf : Fits o none
      · left
        have hacc := accept_inv (hb none) (fun _ t ht => by
          rw [hcur] at ht
          cases isShort with
          | false => exact nomatch ht
          | true => cases ht; exact ⟨hc, fun u h => (nomatch h), fun _ => hws ▸ hna⟩)
        obtain ⟨p', h1, h2, h3, h4⟩ := hacc
        refine ⟨none, p', ?_, h2, ?_, hf⟩
        · rw [he, checkArg_ok (f := false) (h := false) (arg := none) (fun a ha => nomatch ha) (fun hh => nomatch hh.1) hf, h1]
        · have ht : p.text = [] := by rw [Parser.text, hcur]; cases isShort <;> rfl
          rw [h3, h4]
          simp only [Option.isSome_none, Bool.false_eq_true, if_false, ht]
          exact harg
      · right
        obtain ⟨m, hm⟩ := checkArg_fail (p := p) (i := i) (o := o) (n := n) (f := false) (h := false) (arg := none)
          (fun a ha => nomatch ha) (Or.inr hf)
        refine ⟨_, he.trans hm, (hb none).failed m, ?_⟩
        rintro ⟨arg, t, w, h1, h2⟩
        obtain ⟨rfl, _, _⟩ := h1.unique harg
        exact hf h2
    rcases words_cases p with ⟨hws, hlt⟩ | ⟨w, ws, hws, hlt, hrd, hws', hmem⟩
    · refine hA [] hws noneAhead_nil ?_
      unfold parseArg
      rw [if_pos (by decide), if_neg hlt]
      rfl
    · by_cases hd : Dashed w
      · refine hA (w :: ws) hws (noneAhead_cons.2 hd) ?_
        unfold parseArg
        rw [if_pos (by decide), if_pos hlt, hrd]
        simp only [ok_bind, ne_eq, dashed_iff, hd, not_true_eq_false, if_false]
        rfl
      · have he : parseArg p i o (some n) [] = checkArg { p with current := p.current + 1 } i o (some n) true false (some w) := by
          unfold parseArg
          rw [if_pos (by decide), if_pos hlt, hrd]
          simp only [ok_bind, ne_eq, dashed_iff, hd, not_false_eq_true, if_true]
          rfl
        have hcs : ∀ a, some w = some a → CString a := fun a ha => by cases ha; exact hw w hmem
        by_cases hf : Fits o (some w)
        · left
          obtain ⟨p', h1, h2, h3, h4⟩ := accept_inv (hskip (some w) hlt) (fun h => nomatch h)
          refine ⟨some w, p', ?_, h2, ?_, hf⟩
          · rw [he, checkArg_ok (f := true) (h := false) hcs (fun hh => nomatch hh.1) hf, h1]
          · rw [h3, h4, hws, hws']
            exact .next w ws hf.1 hd
        · right
          obtain ⟨m, hm⟩ := checkArg_fail (p := { p with current := p.current + 1 }) (i := i) (o := o) (n := n) (f := true) (h := false)
            hcs (Or.inr hf)
          refine ⟨_, he.trans hm, (hskip none hlt).failed m, ?_⟩
          rintro ⟨arg, t, u, h1, h2⟩
          rw [hws] at h1
          cases h1 with
          | none _ hna => exact hd (noneAhead_cons.1 hna)
          | next => exact hf h2
  | cons b v =>
    have hb0 : b ≠ 0 := fun h => hc (h ▸ List.mem_cons_self)
    by_cases hbe : b = 0x3D
    · subst hbe
      have he : parseArg p i o (some n) (0x3D :: v) = checkArg p i o (some n) false true (some v) := by
        unfold parseArg
        rw [if_neg (by simp [deref])]
        simp only [deref, List.headD_cons]
        rfl
      have hcs : ∀ a, some v = some a → CString a := fun a ha => by cases ha; exact hc.tail
      by_cases hf : Fits o (some v)
      · left
        obtain ⟨p', h1, h2, h3, h4⟩ := accept_inv (hb (some v)) (fun h => nomatch h)
        refine ⟨some v, p', ?_, h2, ?_, hf⟩
        · rw [he, checkArg_ok (f := false) (h := true) hcs (fun hh => nomatch hh.2) hf, h1]
        · rw [h3, h4]
          exact .eq v _ hf.1
      · right
        obtain ⟨m, hm⟩ := checkArg_fail (p := p) (i := i) (o := o) (n := n) (f := false) (h := true) hcs (Or.inr hf)
        refine ⟨_, he.trans hm, (hb none).failed m, ?_⟩
        rintro ⟨arg, t, u, h1, h2⟩
        cases h1 with
        | group _ _ _ hsh hna hl => exact absurd hl (by unfold Letter; decide)
        | eq => exact hf h2
        | glued _ _ _ _ hne => exact hne rfl
    · have hbe' : ¬ deref (b :: v) = 0x3D := hbe
      have hbz : deref (b :: v) ≠ 0 := hb0
      have hcs : ∀ a, some (b :: v) = some a → CString a := fun a ha => by cases ha; exact hc
      have hfin : ∀ q : Parser, (∀ m, Failed p₀ (q.fail m)) → ∀ f : Bool,
          parseArg p i o (some n) (b :: v) = checkArg q i o (some n) f true (some (b :: v)) →
          (f = false → Base p₀ (ps ++ [⟨some i, some (b :: v)⟩]) q ∧ q.words = p.words ∧ NoneAhead p.words) →
          (f = true → ¬ NoneAhead p.words) →
          (∃ arg p', parseArg p i o (some n) (b :: v) = .ok (some ⟨some i, arg⟩, p') ∧ Inv p₀ (ps ++ [⟨some i, arg⟩]) p' ∧
            Arg isShort o (b :: v) p.words arg p'.text p'.words ∧ Fits o arg) ∨
          (∃ p', parseArg p i o (some n) (b :: v) = .ok (none, p') ∧ Failed p₀ p' ∧
            ¬ ∃ arg t w, Arg isShort o (b :: v) p.words arg t w ∧ Fits o arg) := by
        intro q hq f he hff hft
        by_cases hgood : f = false ∧ Fits o (some (b :: v))
        · obtain ⟨rfl, hf⟩ := hgood
          obtain ⟨hbase, hwords, hna⟩ := hff rfl
          left
          obtain ⟨p', h1, h2, h3, h4⟩ := accept_inv hbase (fun h => nomatch h)
          refine ⟨some (b :: v), p', ?_, h2, ?_, hf⟩
          · rw [he, checkArg_ok (f := false) (h := true) hcs (fun hh => nomatch hh.2) hf, h1]
          · rw [h3, h4, hwords]
            exact .glued b v _ hf.1 hbe hna
        · right
          obtain ⟨m, hm⟩ := checkArg_fail (p := q) (i := i) (o := o) (n := n) (f := f) (h := true) hcs (by
            cases f with
            | true => exact Or.inl ⟨rfl, rfl⟩
            | false => exact Or.inr (fun hf => hgood ⟨rfl, hf⟩))
          refine ⟨_, he.trans hm, hq m, ?_⟩
          rintro ⟨arg, t, u, h1, h2⟩
          cases h1 with
          | group _ _ _ hsh hna hl => exact hgrp hsh (fun h => nomatch h) hna
          | eq => exact hbe rfl
          | glued _ _ _ _ _ hna =>
            cases f with
            | true => exact hft rfl hna
            | false => exact hgood ⟨rfl, h2⟩
      rcases words_cases p with ⟨hws, hlt⟩ | ⟨w, ws, hws, hlt, hrd, hws', hmem⟩
      · refine hfin p (fun m => (hb none).failed m) false ?_ (fun _ => ⟨hb _, rfl, hws ▸ noneAhead_nil⟩) (fun h => nomatch h)
        unfold parseArg
        rw [if_pos hbe', if_neg hlt]
        simp only [pure_eq_ok, ok_bind]
        rw [if_pos hbz, if_neg hbe']
        rfl
      · by_cases hd : Dashed w
        · refine hfin p (fun m => (hb none).failed m) false ?_ (fun _ => ⟨hb _, rfl, hws ▸ noneAhead_cons.2 hd⟩) (fun h => nomatch h)
          unfold parseArg
          rw [if_pos hbe', if_pos hlt, hrd]
          simp only [ok_bind, ne_eq, dashed_iff, hd, not_true_eq_false, if_false, pure_eq_ok]
          rw [if_pos hbz, if_neg hbe']
          rfl
        · refine hfin { p with current := p.current + 1 } (fun m => (hskip none hlt).failed m) true ?_ (fun h => nomatch h)
            (fun _ hna => hd (noneAhead_cons.1 (hws ▸ hna)))
          unfold parseArg
          rw [if_pos hbe', if_pos hlt, hrd]
          simp only [ok_bind, ne_eq, dashed_iff, hd, not_false_eq_true, if_true, pure_eq_ok]
          rw [if_pos hbz, if_neg hbe']
          rfl

theorem Base.mark {p₀ : Parser} {ps : List Parsed} {p : Parser} (h : Base p₀ ps p) {i : Nat} {o : Opt} (ho : p.options[i]? = some o)
    {g : List (BitVec 32)} (hl : g.length = 4)
    (hg : ∀ j, j < 128 → (bit g j = true ↔ (∃ q ∈ ps, q.option = some j) ∨ j = i)) (arg : Option Str) :
    Base p₀ (ps ++ [⟨some i, arg⟩])
      { p with mem := change (change p.mem o.counter (· + 1)) o.output (outputOf o), given := g } := by
  refine ⟨h.argv, h.options, h.free, h.hasLog, h.log, h.error, ?_, hl, ?_, h.le⟩
  · have ho' : p₀.options[i]? = some o := h.options ▸ ho
    rw [effects_append, ← h.mem]
    simp only [effect, Option.bind_some, ho']
  · intro j hj
    rw [hg j hj]
    constructor
    · rintro (⟨q, hq, hqj⟩ | rfl)
      · exact ⟨q, List.mem_append_left _ hq, hqj⟩
      · exact ⟨_, List.mem_append_right _ List.mem_cons_self, rfl⟩
    · rintro ⟨q, hq, hqj⟩
      rcases List.mem_append.1 hq with hq | hq
      · exact Or.inl ⟨q, hq, hqj⟩
      · rw [List.mem_singleton] at hq
        subst hq
        cases hqj
        exact Or.inr rfl

/-- An option that was found: what is delivered, or an error when nothing may be. -/
theorem found_spec {p₀ : Parser} {ps : List Parsed} {p : Parser} {i : Nat} {o : Opt} {n cur : Str} {isShort : Bool}
    (hb : Base p₀ ps p) (ho : p.options[i]? = some o) (hi : i < 128) (hn : (if isShort then o.short else o.long) = some n)
    (hcur : p.currentArg = if isShort then some cur else none) (hc : CString cur) (hw : ∀ w ∈ p.argv, CString w) :
    (∃ arg p', found p i isShort cur = .ok (some ⟨some i, arg⟩, p') ∧ Inv p₀ (ps ++ [⟨some i, arg⟩]) p' ∧
      Arg isShort o cur p.words arg p'.text p'.words ∧ Fits o arg ∧ ((∃ q ∈ ps, q.option = some i) → Again o p.mem)) ∨
    (∃ p', found p i isShort cur = .ok (none, p') ∧ Failed p₀ p' ∧
      ¬ ∃ arg t w, Arg isShort o cur p.words arg t w ∧ Fits o arg ∧ ((∃ q ∈ ps, q.option = some i) → Again o p.mem)) := by
  unfold found
  have hrd : rd p.options i = .ok o := by rw [rd, ho]
  rw [hrd]
  simp only [ok_bind, hn]
  rcases mark_spec hb (o := o) hi with ⟨p', h1, h2, h3, h4⟩ | ⟨g, h1, h2, h3, h4⟩
  · right
    rw [h1]
    exact ⟨_, rfl, h2 _, fun ⟨_, _, _, _, _, h⟩ => h4 (h h3)⟩
  · rw [h1]
    simp only [ok_bind, output_eq]
    have hbase := hb.mark ho h2 h3
    by_cases hgr : isShort = true ∧ deref cur ≠ 0 ∧ o.arg = .none
    · rw [if_pos hgr]
      obtain ⟨rfl, hz, hna⟩ := hgr
      cases cur with
      | nil => exact absurd rfl hz
      | cons b t =>
        by_cases hl : Letter b
        · left
          have hal : isAlpha (deref (b :: t)) = true := (isAlpha_iff b).2 hl
          rw [hal]
          simp only [Bool.not_true, Bool.false_eq_true, if_false]
          obtain ⟨p', h5, h6, h7, h8⟩ := accept_inv (hbase none) (fun _ t' ht => by
            have ht : p.currentArg = some t' := ht
            rw [hcur] at ht
            cases ht
            refine ⟨hc, ?_, fun h => nomatch h⟩
            intro u hu
            cases hu
            exact absurd hl (by unfold Letter; decide))
          refine ⟨none, p', h5, h6, ?_, ?_, h4⟩
          · rw [h7, h8]
            have ht : p.text = b :: t := by rw [Parser.text, hcur]; rfl
            show Arg true o (b :: t) p.words none p.text p.words
            rw [ht]
            exact .group b t _ rfl hna hl
          · intro hr
            rw [hna] at hr
            exact nomatch hr
        · right
          have hal : isAlpha (deref (b :: t)) = false := by
            cases h : isAlpha (deref (b :: t)) with
            | false => rfl
            | true => exact absurd ((isAlpha_iff b).1 h) hl
          rw [hal]
          refine ⟨_, rfl, (hbase none).failed _, ?_⟩
          rintro ⟨arg, t', w, h5, h6, _⟩
          cases h5 with
          | group _ _ _ _ _ hl' => exact hl hl'
          | eq _ _ h => exact h hna
          | glued _ _ _ h => exact h hna
    · rw [if_neg hgr]
      have hgrp : isShort = true → cur ≠ [] → o.arg ≠ .none :=
        fun hs hne hna => hgr ⟨hs, fun hz => hne ((deref_zero hc).1 hz), hna⟩
      rcases parseArg_spec (n := n) hbase hcur hc hw hgrp with ⟨arg, p', h5, h6, h7, h8⟩ | ⟨p', h5, h6, h7⟩
      · exact Or.inl ⟨arg, p', h5, h6, h7, h8, h4⟩
      · exact Or.inr ⟨p', h5, h6, fun ⟨a, t, w, h8, h9, _⟩ => h7 ⟨a, t, w, h8, h9⟩⟩

end Tm.Cli
