import Verif.Json.LookupLemmas
import Verif.Json.NumberLemmas

/-!
# JSON pointers: lemmas
-/

namespace Tm.Json

open Tm Spec

theorem wr_ok {b : List Byte} {i : Nat} (h : i < b.length) (v : Byte) : wr b i v = .ok (b.set i v) := by
  unfold wr; rw [if_pos h]

theorem rd_ok {b : List Byte} {i : Nat} (h : i < b.length) : rd b i = .ok b[i] := by
  unfold rd; rw [List.getElem?_eq_getElem h]

theorem xdigit_zero : isXDigit 0 = false := by decide

/-! ### Robustness -/

/-- Unescaping stays within the text and its NUL. -/
theorem unescape_safe (fragment : Bool) (length : Nat) : ∀ (fuel : Nat) (b : List Byte) (i out : Nat), length < b.length →
    b[length]? = some 0 → i ≤ length → out ≤ i → length - i < fuel →
    ∃ r, unescape fragment length fuel b i out = .ok r ∧ ∀ b' o, r = some (b', o) → b'.length = b.length ∧ o ≤ length
  | 0, _, _, _, _, _, _, _, hf => by omega
  | fuel + 1, b, i, out, hb, hz, hi, ho, hf => by
    rw [unescape]
    by_cases hlt : i < length
    · rw [if_pos hlt, rd_ok (by omega), ok_bind]
      have nz : ∀ k, (hk : k < b.length) → b[k] ≠ 0 → k ≠ length := by
        rintro k hk hne rfl
        rw [List.getElem?_eq_getElem hk] at hz
        exact hne (Option.some.inj hz)
      have next : ∀ (n : Nat) (c : Byte), 0 < n → i + n ≤ length →
          ∃ r, (wr b out c >>= fun b => unescape fragment length fuel b (i + n) (out + 1)) = .ok r ∧
            ∀ b' o, r = some (b', o) → b'.length = b.length ∧ o ≤ length := by
        intro n c hn hle
        rw [wr_ok (by omega), ok_bind]
        obtain ⟨r, hr, hs⟩ := unescape_safe fragment length fuel (b.set out c) (i + n) (out + 1) (by simpa using hb)
          (by rw [List.getElem?_set_ne (by omega)]; exact hz) hle (by omega) (by omega)
        refine ⟨r, hr, fun b' o e => ?_⟩
        have := hs b' o e
        simpa using this
      by_cases hp : fragment && b[i] = 0x25
      · rw [if_pos hp, rd_ok (by omega), ok_bind]
        cases hx : isXDigit b[i + 1] with
        | false => exact ⟨none, by simp, nofun⟩
        | true =>
          have h1 : i + 1 ≠ length := nz _ (by omega) (by intro e; rw [e] at hx; exact absurd hx (by decide))
          rw [if_neg (by simp), rd_ok (by omega), ok_bind]
          cases hy : isXDigit b[i + 2] with
          | false => exact ⟨none, by simp, nofun⟩
          | true =>
            have h2 : i + 2 ≠ length := nz _ (by omega) (by intro e; rw [e] at hy; exact absurd hy (by decide))
            rw [if_neg (by simp)]
            exact next 3 _ (by omega) (by omega)
      · rw [if_neg hp]
        by_cases ht : b[i] = 0x7E
        · rw [if_pos ht, rd_ok (by omega), ok_bind]
          by_cases h0 : b[i + 1] = 0x30
          · have h1 : i + 1 ≠ length := nz _ (by omega) (by rw [h0]; decide)
            rw [if_pos h0]
            exact next 2 _ (by omega) (by omega)
          · rw [if_neg h0]
            by_cases h1 : b[i + 1] = 0x31
            · have h2 : i + 1 ≠ length := nz _ (by omega) (by rw [h1]; decide)
              rw [if_pos h1]
              exact next 2 _ (by omega) (by omega)
            · rw [if_neg h1]
              exact ⟨none, rfl, nofun⟩
        · rw [if_neg ht]
          exact next 1 _ (by omega) (by omega)
    · rw [if_neg hlt]
      refine ⟨_, rfl, ?_⟩
      intro b' o e
      cases e
      exact ⟨rfl, by omega⟩

/-- The buffer is the small one, or a block that was allocated. `L` is the memory in use otherwise. -/
def BufOk (L : List Nat) (h : Vec.Heap) (b : Buf) : Prop :=
  64 ≤ b.cells.length ∧ ((b.ptr = .sbo ∧ h.live = L) ∨ ∃ id, b.ptr = .heap id ∧ h.live = id :: L)

theorem ensure_ok {L : List Nat} (junk : Byte) {h : Vec.Heap} {b : Buf} (hb : BufOk L h b) (n : Nat) :
    ∃ h' b' ok, ensure junk h b n = .ok (h', b', ok) ∧ BufOk L h' b' ∧ h'.ok = h.ok ∧ (ok = true → n ≤ b'.cells.length) ∧
      ((∀ k, h.ok k = true) ∨ n ≤ b.cells.length → ok = true) := by
  obtain ⟨hl, hp⟩ := hb
  unfold ensure
  by_cases hn : n > b.cells.length
  · rw [if_pos hn]
    dsimp only
    generalize hs : (if b.cells.length * 2 < n then n else b.cells.length * 2) = sz
    have h1 : n ≤ sz ∧ b.cells.length ≤ sz := by
      rw [← hs]
      split <;> omega
    rcases hp with ⟨hp, hL⟩ | ⟨id, hp, hL⟩
    · rw [if_pos hp]
      unfold Vec.malloc
      cases ho : h.ok h.next with
      | true =>
        refine ⟨_, _, true, rfl, ⟨by simp; omega, Or.inr ⟨_, rfl, by simp [hL]⟩⟩, rfl, by simp; omega, fun _ => rfl⟩
      | false =>
        refine ⟨_, _, false, rfl, ⟨hl, Or.inl ⟨hp, hL⟩⟩, rfl, by simp, ?_⟩
        rintro (h | h)
        · rw [h] at ho; cases ho
        · omega
    · rw [if_neg (by rw [hp]; simp), hp]
      unfold Vec.realloc
      dsimp only
      rw [if_pos (by simp [hL]), ok_bind]
      cases ho : h.ok h.next with
      | true =>
        refine ⟨_, _, true, rfl, ⟨by simp; omega, Or.inr ⟨_, rfl, by simp [hL]⟩⟩, rfl, by simp; omega, fun _ => rfl⟩
      | false =>
        refine ⟨_, _, false, rfl, ⟨hl, Or.inr ⟨id, hp, hL⟩⟩, rfl, by simp, ?_⟩
        rintro (h | h)
        · rw [h] at ho; cases ho
        · omega
  · rw [if_neg hn]
    exact ⟨h, b, true, rfl, ⟨hl, hp⟩, rfl, fun _ => by omega, fun _ => rfl⟩

theorem copyIn_ok {cells seg : List Byte} (h : seg.length < cells.length) :
    ∃ rest, copyIn cells seg = .ok (seg ++ 0 :: rest) ∧ (seg ++ 0 :: rest).length = cells.length := by
  refine ⟨cells.drop (seg.length + 1), ?_, ?_⟩
  · unfold copyIn
    rw [if_pos (by omega), wr_ok (by simp; omega)]
    congr 1
    rw [List.set_append_right _ _ (by omega), Nat.sub_self, List.drop_eq_getElem_cons h]
    rfl
  · simp; omega

/-- What a document is made of: no leftovers, names that can be read. -/
def Whole (v : JVal) : Prop :=
  v ≠ .junk ∧ ∀ ms, v = .object ms → ∃ names, Named ms names

theorem getMember_zero {members : List (View × JVal)} {names : List (List Byte)} (h : Named members names) (name : List Byte) :
    ∃ v k, getMember members name 0 = .ok (v, k) ∧
      ((name ∉ names ∧ v = nil) ∨ ∃ i m, names.findIdx? (fun t => decide (t = name)) = some i ∧ members[i]? = some m ∧ v = m.2) := by
  unfold getMember
  rw [queryMember_eq h name 0 (by omega), ok_bind]
  dsimp only
  cases e : foundFrom names name 0 with
  | none => exact ⟨nil, 0, rfl, Or.inl ⟨foundFrom_none e, rfl⟩⟩
  | some i =>
    have hi := (List.getElem?_eq_some_iff.1 (foundFrom_some e)).1
    rw [← named_length h] at hi
    rw [foundFrom_zero] at e
    dsimp only
    rw [List.getElem?_eq_getElem hi]
    exact ⟨_, _, rfl, Or.inr ⟨i, _, e, List.getElem?_eq_getElem hi, rfl⟩⟩

theorem takeWhile_contains {cells : List Byte} {out : Nat} (h : out < cells.length) : (cells.set out 0).contains 0 = true := by
  simp only [List.contains_eq_mem, decide_eq_true_eq]
  exact List.mem_of_getElem? (i := out) (by rw [List.getElem?_set_self h])

theorem step_safe {L : List Nat} (junk : Byte) (fragment : Bool) {h : Vec.Heap} {b : Buf} (hb : BufOk L h b) {current : JVal}
    (hc : Whole current) (seg : List Byte) :
    ∃ h' b' r, step junk fragment h b current seg = .ok (h', b', r) ∧ BufOk L h' b' ∧
      ∀ v, r = some v → v = nil ∨ (∃ vs, current = .array vs ∧ v ∈ vs) ∨ ∃ ms, current = .object ms ∧ ∃ m ∈ ms, v = m.2 := by
  unfold step
  by_cases hd : isDigit (seg.headD 0)
  · rw [if_pos hd]
    unfold stepArray
    cases current with
    | array vs =>
      refine ⟨h, b, _, rfl, hb, fun v e => Or.inr (Or.inl ⟨vs, rfl, List.mem_of_getElem? e⟩)⟩
    | junk => exact absurd rfl hc.1
    | scalar k c => exact ⟨h, b, none, rfl, hb, nofun⟩
    | object ms => exact ⟨h, b, none, rfl, hb, nofun⟩
  · rw [if_neg hd]
    unfold stepObject
    cases current with
    | object ms =>
      dsimp only
      obtain ⟨names, hn⟩ := hc.2 ms rfl
      obtain ⟨h1, b1, ok, he, hb1, _, hroom, _⟩ := ensure_ok junk hb (seg.length + 1)
      rw [he, ok_bind]
      cases ok with
      | false => exact ⟨h1, b1, none, rfl, hb1, nofun⟩
      | true =>
        have hr := hroom rfl
        obtain ⟨rest, hcp, hlen⟩ := copyIn_ok (cells := b1.cells) (seg := seg) (by omega)
        dsimp only
        rw [if_neg (by simp), hcp, ok_bind]
        have hlen' : seg.length < (seg ++ 0 :: rest).length := by simp
        obtain ⟨r, hu, hs⟩ := unescape_safe fragment seg.length (seg.length + 1) (seg ++ 0 :: rest) 0 0 hlen'
          (by simp) (by omega) (by omega) (by omega)
        rw [hu, ok_bind]
        have hbuf : ∀ cells : List Byte, cells.length = (seg ++ 0 :: rest).length → BufOk L h1 ⟨b1.ptr, cells⟩ := by
          intro cells e
          exact ⟨by rw [e, hlen]; exact hb1.1, hb1.2⟩
        match r, hs with
        | none, _ => exact ⟨h1, _, none, rfl, hbuf _ rfl, nofun⟩
        | some (cells, out), hs =>
          obtain ⟨e1, e2⟩ := hs cells out rfl
          dsimp only
          rw [wr_ok (by omega), ok_bind, if_pos (takeWhile_contains (by omega))]
          obtain ⟨v, k, hg, hv⟩ := getMember_zero hn ((cells.set out 0).takeWhile (· ≠ 0))
          rw [hg, ok_bind]
          refine ⟨h1, _, some v, rfl, hbuf _ (by simpa using e1), ?_⟩
          intro w e
          cases e
          rcases hv with ⟨_, hv⟩ | ⟨i, m, _, hm, hv⟩
          · exact Or.inl hv
          · exact Or.inr (Or.inr ⟨ms, rfl, m, List.mem_of_getElem? hm, hv⟩)
    | junk => exact absurd rfl hc.1
    | scalar k c => exact ⟨h, b, none, rfl, hb, nofun⟩
    | array vs => exact ⟨h, b, none, rfl, hb, nofun⟩

theorem nil_whole : Whole nil := ⟨nofun, nofun⟩

theorem walk_safe {L : List Nat} (junk : Byte) (fragment : Bool) {root : JVal} (hw : ∀ v, PartOf v root → Whole v) :
    ∀ (fuel : Nat) (h : Vec.Heap) (b : Buf) (current : JVal) (text : List Byte), BufOk L h b → (current = nil ∨ PartOf current root) →
      text.length < fuel →
      ∃ h' b' r, walk junk fragment fuel h b current text = .ok (h', b', r) ∧ BufOk L h' b' ∧
        ∀ v, r = some v → v = nil ∨ PartOf v root
  | 0, _, _, _, _, _, _, hf => by omega
  | fuel + 1, h, b, current, text, hb, hc, hf => by
    have hcw : Whole current := by
      rcases hc with rfl | hc
      · exact nil_whole
      · exact hw _ hc
    obtain ⟨h1, b1, r, hs, hb1, hr⟩ := step_safe junk fragment hb hcw (text.takeWhile (· ≠ 0x2F))
    rw [walk, hs, ok_bind]
    match r, hr with
    | none, _ => exact ⟨h1, b1, none, rfl, hb1, nofun⟩
    | some v, hr =>
      have hv : v = nil ∨ PartOf v root := by
        rcases hr v rfl with e | ⟨vs, e, hm⟩ | ⟨ms, e, m, hm, e2⟩
        · exact Or.inl e
        · right
          rcases hc with rfl | hc
          · exact absurd e nofun
          · exact .item hc e.symm v hm
        · right
          rcases hc with rfl | hc
          · exact absurd e nofun
          · rw [e2]; exact .member hc e.symm m hm
      dsimp only
      cases ht : text.dropWhile (· ≠ 0x2F) with
      | nil =>
        refine ⟨h1, b1, some v, rfl, hb1, ?_⟩
        intro w e
        cases e
        exact hv
      | cons c t =>
        dsimp only
        have hl : (text.dropWhile (· ≠ 0x2F)).length ≤ text.length := (List.dropWhile_sublist _).length_le
        rw [ht, List.length_cons] at hl
        exact walk_safe junk fragment hw fuel h1 b1 v t hb1 hv (by omega)

theorem free_ok {L : List Nat} {h : Vec.Heap} {b : Buf} (hb : BufOk L h b) :
    ∃ h', freeBuffer h b = .ok h' ∧ h'.live = L := by
  unfold freeBuffer
  rcases hb.2 with ⟨hp, hL⟩ | ⟨id, hp, hL⟩
  · rw [if_pos hp]; exact ⟨h, rfl, hL⟩
  · rw [if_neg (by rw [hp]; simp), hp]
    unfold Vec.free
    dsimp only
    rw [if_pos (by simp [hL])]
    exact ⟨_, rfl, by simp [hL]⟩

theorem start_ok (junk : Byte) (h : Vec.Heap) : BufOk h.live h ⟨.sbo, List.replicate 64 junk⟩ :=
  ⟨by simp, Or.inl ⟨rfl, rfl⟩⟩

/-! ### Documents -/

theorem named_of_shown {R : Shown} (hR : ∀ v t, R.name v t → ∃ t', v.text = .ok t') {vs : List (View × JVal)} {ms : List (List Byte × Json)}
    (h : List.Forall₂ (fun v m => R.name v.1 m.1) vs ms) : ∃ names, Named vs names := by
  induction h with
  | nil => exact ⟨[], .nil⟩
  | cons h1 _ ih =>
    obtain ⟨names, hn⟩ := ih
    obtain ⟨t, ht⟩ := hR _ _ h1
    exact ⟨t :: names, .cons ht hn⟩

theorem forall2_mem {α β : Type} {R : α → β → Prop} {xs : List α} {ys : List β} (h : List.Forall₂ R xs ys) :
    ∀ x ∈ xs, ∃ y ∈ ys, R x y := by
  induction h with
  | nil => nofun
  | cons h1 _ ih =>
    intro x hx
    rcases List.mem_cons.1 hx with rfl | hx
    · exact ⟨_, by simp, h1⟩
    · obtain ⟨y, hy, hr⟩ := ih x hx
      exact ⟨y, by simp [hy], hr⟩

theorem inside_means {R : Shown} {v w : JVal} {j : Json} (h : MeansBy R v j) (hi : PartOf w v) : ∃ j', MeansBy R w j' := by
  induction hi with
  | self => exact ⟨j, h⟩
  | item _ e u hu ih =>
    obtain ⟨j', hj⟩ := ih h
    subst e
    cases hj with
    | arr hf =>
      obtain ⟨y, _, hy⟩ := forall2_mem hf u hu
      exact ⟨y, hy⟩
  | member _ e m hm ih =>
    obtain ⟨j', hj⟩ := ih h
    subst e
    cases hj with
    | obj hf hg =>
      obtain ⟨y, _, hy⟩ := forall2_mem hg m.2 (List.mem_map.2 ⟨m, hm, rfl⟩)
      exact ⟨y, hy⟩

theorem means_whole {R : Shown} (hR : ∀ v t, R.name v t → ∃ t', v.text = .ok t') {v : JVal} {j : Json} (h : MeansBy R v j) : Whole v := by
  constructor
  · rintro rfl
    cases h
  · rintro ms rfl
    cases h with
    | obj hf _ => exact named_of_shown hR hf

end Tm.Json
