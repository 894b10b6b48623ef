import Verif.Xml.RunLemmas

namespace Tm.Xml

open Tm.Uni (utf8 encode Scalar Scalars WellFormed)

/-! ## No fault -/

/-- The program does not read behind the text, or it can. -/
def Flags.Readable (f : Flags) (after : List Byte) : Prop := after ≠ [] ∨ f.reduce = true ∨ f.newlines = false

theorem newline_ok (after : List Byte) (h : after ≠ []) (u : Unesc) (cp : Nat) :
    ∃ u', newline after u cp = .ok u' ∧ u'.cur = u.cur := by
  unfold newline
  split
  · rename_i hc
    simp only [Bool.and_eq_true, Bool.not_eq_true', List.isEmpty_eq_false_iff] at hc
    have h1 : 1 < (u.cur ++ after).length := by
      have := List.length_pos_iff.mpr h
      have := List.length_pos_iff.mpr hc.2
      simp only [List.length_append]; omega
    have : rd (u.cur ++ after) 1 = .ok ((u.cur ++ after)[1]) := by
      unfold rd; rw [List.getElem?_eq_getElem h1]
    rw [this]
    dsimp only
    split
    · exact ⟨u, rfl, rfl⟩
    · exact ⟨_, rfl, by simp [next]⟩
  · exact ⟨_, rfl, by simp [next]⟩

theorem place_ok {f : Flags} {after : List Byte} (h : f.Readable after) (u : Unesc) (cp : Nat) (bytes : List Byte) :
    ∃ u', place f after u cp bytes = .ok u' ∧ u'.cur = u.cur := by
  unfold place
  split
  · split
    · split
      · exact ⟨_, rfl, rfl⟩
      · split
        · exact ⟨_, rfl, by simp [next]⟩
        · exact ⟨_, rfl, by simp [next]⟩
    · exact ⟨_, rfl, by simp [next]⟩
  · rename_i hr
    split
    · rename_i hn
      simp only [Bool.and_eq_true] at hn
      rcases h with h | h | h
      · exact newline_ok after h u cp
      · exact absurd h hr
      · rw [h] at hn; simp at hn
    · exact ⟨_, rfl, by simp [next]⟩

theorem place_cur {f : Flags} {after : List Byte} {u u' : Unesc} {cp : Nat} {bytes : List Byte}
    (h : place f after u cp bytes = .ok u') : u'.cur = u.cur := by
  rw [place_core] at h
  unfold placeCore newlineCore at h
  repeat' split at h
  all_goals first
    | (cases h; rfl)
    | (simp only [Except.map] at h; cases h; rfl)
    | cases h

/-- A step that does not fault and does not move back. -/
def Tame (u : Unesc) (x : C (Option Unesc)) : Prop :=
  ∃ o, x = .ok o ∧ ∀ u', o = some u' → ∃ p, u.cur = p ++ u'.cur

theorem Tame.none (u : Unesc) : Tame u (.ok none) := ⟨_, rfl, nofun⟩

theorem Tame.same {u u' : Unesc} (h : u'.cur = u.cur) : Tame u (.ok (some u')) :=
  ⟨_, rfl, fun _ e => by cases e; exact ⟨[], by rw [h]; rfl⟩⟩

theorem plain_tame {f : Flags} {after : List Byte} (h : f.Readable after) (u : Unesc) (cp : Nat) :
    Tame u (plain f after u cp) := by
  unfold plain
  split
  · obtain ⟨u', he, hu⟩ := place_ok h u cp (u.prev.take (u.prev.length - u.cur.length))
    rw [he]
    exact Tame.same hu
  · exact Tame.none u

theorem charRef_tame {f : Flags} {after : List Byte} (h : f.Readable after) (u : Unesc) (base : Nat) (ds rest : List Byte)
    (hr : ∃ p, u.cur = p ++ rest) : Tame u (charRef f after u base ds rest) := by
  unfold charRef
  split
  · obtain ⟨u', he, hu⟩ := place_ok h { u with cur := rest } (strtoul base ds) (encodeCp (strtoul base ds))
    rw [he]
    refine ⟨_, rfl, fun _ e => ?_⟩
    cases e
    rw [hu]; exact hr
  · exact Tame.none u

theorem numeric_tame {f : Flags} {after : List Byte} (h : f.Readable after) (u : Unesc) (c : List Byte)
    (hc : ∃ p, u.cur = p ++ c) : Tame u (numeric f after u c) := by
  have hd : ∀ n, ∃ p, u.cur = p ++ c.drop n := fun n => by
    obtain ⟨p, hp⟩ := hc
    exact ⟨p ++ c.take n, by rw [List.append_assoc, List.take_append_drop, hp]⟩
  unfold numeric
  split
  · exact Tame.none u
  · dsimp only
    split
    · exact Tame.none u
    · split
      · split
        · exact Tame.none u
        · split
          · exact charRef_tame h u _ _ _ (hd _)
          · exact Tame.none u
      · split
        · exact Tame.none u
        · split
          · exact charRef_tame h u _ _ _ (hd _)
          · exact Tame.none u

theorem named_tame (u : Unesc) (c : Byte) (n : Nat) : Tame u (named u c n) :=
  ⟨_, rfl, fun _ e => by cases e; exact ⟨u.cur.take n, by simp [next]⟩⟩

theorem ampersand_tame {f : Flags} {after : List Byte} (h : f.Readable after) (u : Unesc) :
    Tame u (ampersand f after u) := by
  unfold ampersand
  split
  · exact Tame.none u
  · split
    · exact numeric_tame h u _ ⟨u.cur.take 1, by rw [← List.drop_one, List.take_append_drop]⟩
    · repeat' split
      all_goals first
        | exact named_tame u _ _
        | exact Tame.same (by simp [next])
        | exact Tame.none u

theorem unescStep_tame {f : Flags} {after : List Byte} (h : f.Readable after) (u : Unesc) (cp : Nat) :
    Tame u (unescStep f after u cp) := by
  unfold unescStep
  split
  · exact Tame.none u
  · split
    · exact ampersand_tame h u
    · repeat' split
      all_goals first
        | exact Tame.same (by simp [next])
        | exact Tame.none u
        | exact plain_tame h u cp

theorem cdataStep_tame {f : Flags} {after : List Byte} (h : f.Readable after) (u : Unesc) (cp : Nat) :
    Tame u (cdataStep f after u cp) := by
  unfold cdataStep
  repeat' split
  all_goals first
    | exact Tame.same (by simp [next])
    | exact Tame.none u
    | exact plain_tame h u cp

theorem loop_ok (step : Unesc → Nat → C (Option Unesc)) (hs : ∀ u cp, Tame u (step u cp)) :
    ∀ (fuel : Nat) (u : Unesc), u.cur.length < fuel → ∃ r, unescLoop step fuel u = .ok r := by
  intro fuel
  induction fuel with
  | zero => intro u h; omega
  | succ fuel ih =>
    intro u h
    unfold unescLoop
    cases he : extract u.cur with
    | none => exact ⟨_, rfl⟩
    | some p =>
      obtain ⟨cp, cur⟩ := p
      dsimp only
      obtain ⟨o, ho, hlen⟩ := hs { u with cur := cur } cp
      rw [ho]
      cases o with
      | none => exact ⟨_, rfl⟩
      | some u' =>
        obtain ⟨p, hp⟩ := hlen u' rfl
        have h1 := extract_lt he
        have h2 : cur.length = p.length + u'.cur.length := by
          have : cur = p ++ u'.cur := hp
          rw [this, List.length_append]
        exact ih u' (by omega)

/-! ## Sound -/

/-- No decimal character reference has a number that does not fit into 32 bits. -/
def NoWrap (s : List Byte) : Prop :=
  ∀ (p ds q : List Byte) (n : Nat), s = p ++ ascii "&#" ++ ds ++ ascii ";" ++ q → Numeral DecDigit 10 ds n → n < 2 ^ 32

theorem NoWrap.suffix {s s' p : List Byte} (h : NoWrap s) (hp : s = p ++ s') : NoWrap s' := by
  intro q ds r n he
  exact h (p ++ q) ds r n (by rw [hp, he]; simp)

theorem encode_cons (c : Nat) (cs : List Nat) : encode utf8 (c :: cs) = utf8 c ++ encode utf8 cs := rfl

theorem wf_drop {b : Byte} {s : List Byte} (h : WellFormed utf8 (b :: s)) (hb : b.toNat < 0x80) : WellFormed utf8 s := by
  obtain ⟨cs, hcs, he⟩ := h
  cases cs with
  | nil => cases he
  | cons c cs =>
    rw [encode_cons] at he
    obtain ⟨_, rfl⟩ := utf8_eq_ascii (hcs c List.mem_cons_self) hb he.symm
    exact ⟨cs, fun c hc => hcs c (List.mem_cons_of_mem _ hc), rfl⟩

theorem wf_drop_list {p s : List Byte} (h : WellFormed utf8 (p ++ s)) (hp : ∀ b ∈ p, b.toNat < 0x80) : WellFormed utf8 s := by
  induction p with
  | nil => exact h
  | cons b p ih =>
    exact ih (wf_drop h (hp b List.mem_cons_self)) fun b hb => hp b (List.mem_cons_of_mem _ hb)

theorem charRef_inv {f : Flags} {after : List Byte} {u u' : Unesc} {base : Nat} {ds rest : List Byte}
    (h : charRef f after u base ds rest = .ok (some u')) : validXml (strtoul base ds) = true ∧ u'.cur = rest := by
  unfold charRef at h
  split at h
  · rename_i hv
    refine ⟨hv, ?_⟩
    split at h
    · cases h
    · rename_i hp
      cases h
      exact place_cur hp
  · cases h

theorem takeWhile_split (c : List Byte) (h : ¬ (c.takeWhile (· != 0x3B)).length = c.length) :
    c = c.takeWhile (· != 0x3B) ++ 0x3B :: c.drop ((c.takeWhile (· != 0x3B)).length + 1) := by
  induction c with
  | nil => simp at h
  | cons b c ih =>
    by_cases hb : (b != 0x3B) = true
    · rw [List.takeWhile_cons_of_pos (p := (· != 0x3B)) hb] at h ⊢
      simp only [List.length_cons] at h ⊢
      have := ih (by omega)
      simp only [List.cons_append, List.drop_succ_cons]
      rw [← this]
    · rw [List.takeWhile_cons_of_neg (p := (· != 0x3B)) hb]
      simp only [bne_iff_ne, ne_eq, Classical.not_not] at hb
      subst hb
      rfl

/-- What `numeric` accepts. -/
theorem numeric_inv {f : Flags} {after : List Byte} {u u' : Unesc} {c : List Byte}
    (h : numeric f after u c = .ok (some u')) :
    (∃ ds n, c = ds ++ 0x3B :: u'.cur ∧ Numeral DecDigit 10 ds n ∧ ds.length ≤ 10 ∧ XmlChar (n % 2 ^ 32)) ∨
    (∃ ds n, c = 0x78 :: ds ++ 0x3B :: u'.cur ∧ Numeral HexDigit 16 ds n ∧ ds.length ≤ 8 ∧ XmlChar n) := by
  unfold numeric at h
  split at h
  · cases h
  · dsimp only at h
    split at h
    · cases h
    · rename_i hl
      have hsplit := takeWhile_split c hl
      generalize hds : c.takeWhile (· != 0x3B) = ds at h hsplit
      split at h
      · rename_i hx
        split at h
        · cases h
        · rename_i hlen
          split at h
          · rename_i hall
            obtain ⟨hv, hcur⟩ := charRef_inv h
            right
            obtain ⟨ts, hts⟩ : ∃ ts, ds = 0x78 :: ts := by
              cases ds with
              | nil => simp at hx
              | cons d ts => simp at hx; exact ⟨ts, by rw [hx]; rfl⟩
            have ht : ds.tail = ts := by rw [hts]; rfl
            rw [ht] at hall hv hlen
            simp only [Bool.or_eq_true, decide_eq_true_eq, not_or, Nat.not_lt] at hlen
            have hne : ts ≠ [] := by intro e; rw [e] at hlen; simp at hlen
            have hn := numeral_of_all (base := 16) (digit := HexDigit) (p := isHex) (fun d h => isHex_spec h) ts hne hall
            obtain ⟨_, _, _, hb⟩ := hn.facts (p := isHex) fun d n h => h.facts
            have hb' : ts.foldl (fun n d => n * 16 + digitVal d) 0 < 2 ^ 32 := by
              refine Nat.lt_of_lt_of_le hb ?_
              exact Nat.le_trans (Nat.pow_le_pow_right (by decide : 0 < 16) (by omega : ts.length ≤ 8)) (by decide)
            refine ⟨ts, _, ?_, hn, by omega, ?_⟩
            · rw [hcur, ← hts]; exact hsplit
            · have := validXml_iff.mp hv
              unfold strtoul at this
              rwa [Nat.mod_eq_of_lt hb'] at this
          · cases h
      · split at h
        · cases h
        · rename_i hlen
          split at h
          · rename_i hall
            obtain ⟨hv, hcur⟩ := charRef_inv h
            left
            simp only [Bool.or_eq_true, decide_eq_true_eq, not_or, Nat.not_lt] at hlen
            have hne : ds ≠ [] := by intro e; rw [e] at hlen; simp at hlen
            have hn := numeral_of_all (base := 10) (digit := DecDigit) (p := isDec) (fun d h => isDec_spec h) ds hne hall
            exact ⟨ds, _, by rw [hcur]; exact hsplit, hn, by omega, validXml_iff.mp hv⟩
          · cases h

theorem named_inv {u u' : Unesc} {c : Byte} {n : Nat} (h : named u c n = .ok (some u')) : u'.cur = u.cur.drop n := by
  unfold named at h; cases h; rfl

/-- What `ampersand` accepts. -/
theorem ampersand_inv {f : Flags} {after : List Byte} {u u' : Unesc} (h : ampersand f after u = .ok (some u')) :
    (∃ c, u.cur = 0x23 :: c ∧ numeric f after u c = .ok (some u')) ∨
    (∃ e c, (e, c) ∈ entities ∧ u.cur = e ++ u'.cur) ∨
    (u'.cur = u.cur ∧ (∀ p ∈ entities, ¬ p.1 <+: u.cur) ∧ ¬ ascii "#" <+: u.cur ∧ (0x3B : Byte) ∈ u.cur) := by
  have key : ∀ (e : List Byte) (c : Nat) (b : Byte) (n : Nat), (e, c) ∈ entities → e.length = n → e.isPrefixOf u.cur = true →
      named u b n = .ok (some u') → ∃ e c, (e, c) ∈ entities ∧ u.cur = e ++ u'.cur := by
    intro e c b n he hn hp h
    refine ⟨e, c, he, ?_⟩
    obtain ⟨r, hr⟩ := prefix_iff.mp hp
    rw [named_inv h, ← hr, ← hn, List.drop_left]
  unfold ampersand at h
  split at h
  · cases h
  split at h
  · rename_i hh
    left
    cases hc : u.cur with
    | nil => rw [hc] at hh; simp at hh
    | cons b c =>
      rw [hc] at hh h; simp at hh; subst hh
      exact ⟨c, rfl, h⟩
  rename_i hh
  split at h
  · rename_i hp; exact .inr (.inl (key _ 0x3C _ _ (by rw [entities_eq]; simp) rfl hp h))
  split at h
  · rename_i hp; exact .inr (.inl (key _ 0x26 _ _ (by rw [entities_eq]; simp) rfl hp h))
  split at h
  · rename_i hp; exact .inr (.inl (key _ 0x22 _ _ (by rw [entities_eq]; simp) rfl hp h))
  split at h
  · rename_i hp; exact .inr (.inl (key _ 0x27 _ _ (by rw [entities_eq]; simp) rfl hp h))
  split at h
  · rename_i hp; exact .inr (.inl (key _ 0x3E _ _ (by rw [entities_eq]; simp) rfl hp h))
  rename_i a1 a2 a3 a4 a5
  split at h
  · rename_i hs
    cases h
    refine .inr (.inr ⟨by simp [next], ?_, ?_, List.contains_iff_mem.mp hs⟩)
    · rw [prefix_iff] at a1 a2 a3 a4 a5
      rw [entities_eq]
      simp only [List.mem_cons, List.not_mem_nil, or_false, forall_eq_or_imp, forall_eq]
      exact ⟨a1, a2, a3, a4, a5⟩
    · rw [ascii_num]
      rintro ⟨r, hr⟩
      exact hh (by rw [← hr]; rfl)
  · cases h

theorem plain_inv {f : Flags} {after : List Byte} {u u' : Unesc} {cp : Nat} (h : plain f after u cp = .ok (some u')) :
    XmlChar cp ∧ u'.cur = u.cur := by
  unfold plain at h
  split at h
  · rename_i hv
    refine ⟨validXml_iff.mp hv, ?_⟩
    cases hp : place f after u cp (List.take (u.prev.length - u.cur.length) u.prev) with
    | error e => rw [hp] at h; cases h
    | ok v => rw [hp] at h; cases h; exact place_cur hp
  · cases h

theorem ascii_bytes {b : Byte} {e : List Byte} {c : Nat} (he : (e, c) ∈ entities) (hb : b ∈ e) : b.toNat < 0x80 := by
  have : ∀ p ∈ entities, ∀ b ∈ p.1, b.toNat < 0x80 := by decide
  exact this _ he b hb

theorem isDec_ascii {b : Byte} (h : isDec b = true) : b.toNat < 0x80 := by
  unfold isDec at h
  simp only [Bool.and_eq_true, decide_eq_true_eq] at h
  omega

theorem isHex_ascii {b : Byte} (h : isHex b = true) : b.toNat < 0x80 := by
  unfold isHex isDec at h
  simp only [Bool.or_eq_true, Bool.and_eq_true, decide_eq_true_eq] at h
  omega

theorem loop_sound {f : Flags} (hc : f.comment = false) (after : List Byte) :
    ∀ (fuel : Nat) (u : Unesc) (r : Result), unescLoop (unescStep f after) fuel u = .ok r → r.ok = true →
      WellFormed utf8 u.cur → NoWrap u.cur → ∃ t, Denotes u.cur t := by
  intro fuel
  induction fuel with
  | zero => intro u r h; cases h
  | succ fuel ih =>
    intro u r h hr hw hn
    obtain ⟨cs, hcs, he⟩ := hw
    cases cs with
    | nil => rw [he]; exact ⟨[], .nil⟩
    | cons c cs =>
      rw [encode_cons] at he
      have hsc := hcs c List.mem_cons_self
      have hw' : WellFormed utf8 (encode utf8 cs) := ⟨cs, fun x hx => hcs x (List.mem_cons_of_mem _ hx), rfl⟩
      unfold unescLoop at h
      rw [he, extract_utf8 hsc] at h
      dsimp only at h
      generalize hs : encode utf8 cs = s at h he hw'
      cases hst : unescStep f after { u with cur := s } c with
      | error e => rw [hst] at h; cases h
      | ok o =>
        rw [hst] at h
        cases o with
        | none => cases h; cases hr
        | some u' =>
          dsimp only at h
          rw [he]
          unfold unescStep at hst
          split at hst
          · cases hst
          split at hst
          · rename_i _ hamp
            subst hamp
            have e26 : utf8 0x26 = [0x26] := by decide
            have hpre : u.cur = [0x26] ++ s := by rw [he, e26]
            rcases ampersand_inv hst with ⟨x, hx, hnum⟩ | ⟨e, c, hec, hx⟩ | ⟨h1, h2, h3, h4⟩
            · have hx : s = 0x23 :: x := hx
              rcases numeric_inv hnum with ⟨ds, n, hd, hnu, hl, hxc⟩ | ⟨ds, n, hd, hnu, hl, hxc⟩
              · obtain ⟨_, hall, _, _⟩ := hnu.facts (p := isDec) fun d n h => h.facts
                have hlt : n < 2 ^ 32 := hn [] ds u'.cur n (by
                  rw [hpre, hx, hd, ascii_ref, ascii_semi]; simp) hnu
                rw [Nat.mod_eq_of_lt hlt] at hxc
                have hwu : WellFormed utf8 u'.cur := by
                  rw [hx, hd] at hw'
                  have := wf_drop hw' (by decide)
                  exact wf_drop (wf_drop_list this fun b hb => isDec_ascii (List.all_eq_true.mp hall b hb)) (by decide)
                obtain ⟨t, ht⟩ := ih u' r h hr hwu (hn.suffix (p := [0x26, 0x23] ++ ds ++ [0x3B]) (by
                  rw [hpre, hx, hd]; simp))
                refine ⟨n :: t, ?_⟩
                have := Denotes.dec ds n u'.cur t hnu hl hxc ht
                rwa [ascii_ref, ascii_semi, show [0x26, 0x23] ++ ds ++ [0x3B] ++ u'.cur = utf8 0x26 ++ s by
                  rw [hx, hd, e26]; simp] at this
              · obtain ⟨_, hall, _, _⟩ := hnu.facts (p := isHex) fun d n h => h.facts
                have hwu : WellFormed utf8 u'.cur := by
                  rw [hx, hd] at hw'
                  have := wf_drop (wf_drop hw' (by decide)) (by decide)
                  exact wf_drop (wf_drop_list this fun b hb => isHex_ascii (List.all_eq_true.mp hall b hb)) (by decide)
                obtain ⟨t, ht⟩ := ih u' r h hr hwu (hn.suffix (p := [0x26, 0x23, 0x78] ++ ds ++ [0x3B]) (by
                  rw [hpre, hx, hd]; simp))
                refine ⟨n :: t, ?_⟩
                have := Denotes.hex ds n u'.cur t hnu hl hxc ht
                rwa [ascii_hex, ascii_semi, show [0x26, 0x23, 0x78] ++ ds ++ [0x3B] ++ u'.cur = utf8 0x26 ++ s by
                  rw [hx, hd, e26]; simp] at this
            · have hx : s = e ++ u'.cur := hx
              have hwu : WellFormed utf8 u'.cur := by
                rw [hx] at hw'; exact wf_drop_list hw' fun b hb => ascii_bytes hec hb
              obtain ⟨t, ht⟩ := ih u' r h hr hwu (hn.suffix (p := [0x26] ++ e) (by rw [hpre, hx]; simp))
              refine ⟨c :: t, ?_⟩
              have := Denotes.entity e c u'.cur t hec ht
              rwa [ascii_amp, show [0x26] ++ e ++ u'.cur = utf8 0x26 ++ s by rw [hx, e26]; simp] at this
            · have h1 : u'.cur = s := h1
              obtain ⟨t, ht⟩ := ih u' r h hr (by rw [h1]; exact hw') (by rw [h1]; exact hn.suffix hpre)
              rw [h1] at ht
              refine ⟨0x26 :: t, ?_⟩
              have := Denotes.custom s t h2 h3 h4 ht
              rwa [ascii_amp, ← e26] at this
          rename_i h26
          split at hst
          · rw [hc] at hst; simp at hst
          rename_i h3c
          have hsuf : NoWrap s := hn.suffix he
          split at hst
          · rename_i _ h5d
            subst h5d
            have e5d : utf8 0x5D = [0x5D] := by decide
            rw [hc] at hst
            simp only [Bool.not_false, Bool.true_and] at hst
            split at hst
            · cases hst
            · rename_i hp
              have h1 : u'.cur = s := by cases hst; simp [next]
              obtain ⟨t, ht⟩ := ih u' r h hr (by rw [h1]; exact hw') (by rw [h1]; exact hsuf)
              rw [h1] at ht
              refine ⟨_, Denotes.char 0x5D s t (by decide) (by decide) (by decide) ?_ ht⟩
              rw [ascii_end, e5d]
              intro hq
              rw [prefix_iff] at hp
              exact hp (List.cons_prefix_cons.mp hq).2
          · rename_i h5d
            obtain ⟨hx, h1⟩ := plain_inv hst
            have h1 : u'.cur = s := h1
            obtain ⟨t, ht⟩ := ih u' r h hr (by rw [h1]; exact hw') (by rw [h1]; exact hsuf)
            rw [h1] at ht
            refine ⟨_, Denotes.char c s t hx h26 h3c ?_ ht⟩
            rw [ascii_end]
            rintro ⟨q, hq⟩
            exact h5d (utf8_eq_ascii hsc (b := 0x5D) (by decide) hq.symm).1

end Tm.Xml
