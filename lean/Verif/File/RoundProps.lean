import Verif.File.Utf8Props

/-! What was written is read back. -/

namespace Tm.File

open Tm.Uni (Scheme WellFormed IsUtf8 Scalars Scalar encode)

/-- Part of C231: the bytes that were written are read back, in any later state in which the files are as they were after the writing; reading succeeds when
nothing goes wrong. Missing: writing in which a call fails, see `C216_not_written`. -/
theorem C231_bytes_partial (p data : List Byte) (flags : Flags) (w : World) (hw : Fresh w) (ha : Alone w) (hn : NoFail w) (r : WriteResult) (w' : World)
    (h : writeFileEx p data flags w = .ok (r, w')) (hr : r.ec = 0) (v : World) (hv : Fresh v) (hav : Alone v) (ht : v.tree = w'.tree) (hc : v.cwd = w.cwd) :
    ∃ r' v', readFile p v = .ok (r', v') ∧ (r'.ec = 0 → r'.contents.cells.take r'.contents.size = data) ∧ (Quiet v → r'.ec = 0) := by
  have hf := C216_exact_partial p data flags w hw ha hn r w' h hr
  obtain ⟨r', v', e, _⟩ := C214_memory p v hv
  refine ⟨r', v', e, fun h0 => ?_, fun hq => ?_⟩
  · have := (C214_exact p v hv hav r' v' e).2 h0
    rw [ht, hc, hf] at this
    injection this with this; injection this with this; injection this with this
    exact this.symm
  · exact (C214_result p v hv hq r' v' e).1 data (by rw [ht, hc]; exact hf)

example : ∃ r w' r' v', writeFileEx [lx] [7, 8] ⟨false, false, false, false⟩ demo = .ok (r, w') ∧ r.ec = 0 ∧ readFile [lx] w' = .ok (r', v') ∧ r'.ec = 0 ∧
    r'.contents.cells.take r'.contents.size = [7, 8] := by
  refine ⟨_, _, _, _, rfl, by decide, rfl, by decide, by decide⟩

theorem utf8_low {c : Nat} (hc : Scalar c) : ∀ b ∈ Uni.utf8 c, b ≠ 0xFE := by
  have hlt : c < 0x110000 := by rw [Scalar] at hc; omega
  have key : ∀ n : Nat, BitVec.ofNat 8 n = (0xFE : Byte) → n % 256 = 0xFE := by
    intro n hn
    have := congrArg BitVec.toNat hn
    simpa using this
  intro b hb hx
  subst hx
  rw [Uni.utf8] at hb
  (repeat' split at hb) <;> simp only [List.mem_cons, List.not_mem_nil, or_false] at hb
  · have := key _ hb.symm; omega
  · rcases hb with hb | hb <;> have := key _ hb.symm <;> omega
  · rcases hb with hb | hb | hb <;> have := key _ hb.symm <;> omega
  · rcases hb with hb | hb | hb | hb <;> have := key _ hb.symm <;> omega

theorem encode_marked {cs : List Nat} (hcs : Scalars cs) (sch : Scheme) {t : List Byte} (h : encode Uni.utf8 cs = sch.mark ++ t) : cs.head? = some 0xFEFF := by
  have hno : (0xFE : Byte) ∉ sch.mark := by
    intro hm
    have : (0xFE : Byte) ∈ encode Uni.utf8 cs := by rw [h]; exact List.mem_append_left _ hm
    obtain ⟨c, hc, hb⟩ := List.mem_flatMap.1 this
    exact utf8_low (hcs c hc) _ hb rfl
  cases sch with
  | utf8 =>
    cases cs with
    | nil => cases h
    | cons c cs =>
      have hc : Scalar c := hcs c (by simp)
      have hlt : c < 0x110000 := by rw [Scalar] at hc; omega
      rw [show encode Uni.utf8 (c :: cs) = Uni.utf8 c ++ encode Uni.utf8 cs from rfl, show Scheme.utf8.mark = [0xEF, 0xBB, 0xBF] by decide] at h
      have key : ∀ (n : Nat) (b : Byte), BitVec.ofNat 8 n = b → n % 256 = b.toNat := by
        intro n b hn
        have := congrArg BitVec.toNat hn
        simpa using this
      rw [Uni.utf8] at h
      (repeat' split at h) <;> simp only [List.cons_append, List.nil_append, List.cons.injEq] at h
      · have := key _ _ h.1; simp at this; omega
      · have := key _ _ h.1; simp at this; omega
      · have h1 := key _ _ h.1
        have h2 := key _ _ h.2.1
        have h3 := key _ _ h.2.2.1
        simp at h1 h2 h3
        have : c = 0xFEFF := by omega
        rw [this]; rfl
      · have := key _ _ h.1; simp at this; omega
  | _ => exact absurd (by decide) hno

/-- Part of C231: a text that does not begin with a byte order mark is read back as it was written by `tmu_write_file_as_utf8`. Missing: texts that begin with a
mark, the empty text, and writing or reading in which a call fails. -/
theorem C231_text_partial (p : List Byte) (cs : List Nat) (hcs : Scalars cs) (h0 : cs ≠ []) (hm : cs.head? ≠ some 0xFEFF) (w : World) (hw : Fresh w) (hq : Quiet w) (hok : Writable w.tree w.cwd p) :
    ∃ w', writeFileAsUtf8 p (encode Uni.utf8 cs) w = .ok (⟨(encode Uni.utf8 cs).length, 0⟩, w') ∧
      ∀ v, Fresh v → Quiet v → v.tree = w'.tree → v.cwd = w.cwd →
        ∃ res v', readFileAsUtf8 p v = .ok (res, v') ∧ res.ec = 0 ∧ res.contents.cells.take res.contents.size = encode Uni.utf8 cs := by
  obtain ⟨w', h1, h2⟩ := C218_bytes_partial p (encode Uni.utf8 cs) w hw hq hok
  refine ⟨w', h1, fun v hv hqv ht hc => ?_⟩
  have hne : encode Uni.utf8 cs ≠ [] := by
    cases cs with
    | nil => exact absurd rfl h0
    | cons c cs =>
      intro h
      have := (List.append_eq_nil_iff.1 (show Uni.utf8 c ++ encode Uni.utf8 cs = [] from h)).1
      rw [Uni.utf8] at this
      (repeat' split at this) <;> cases this
  obtain ⟨res, v', blk, rest, e, g1, _, _, g2, _⟩ := C215_text_partial p v hv hqv (encode Uni.utf8 cs) (encode Uni.utf8 cs) .utf8 (by rw [ht, hc]; exact h2)
    (Or.inr ⟨rfl, hne, Or.inr ⟨rfl, fun sch ⟨t, _, h⟩ => hm (encode_marked hcs sch h)⟩, rfl⟩) ⟨cs, hcs, rfl⟩
  refine ⟨res, v', e, g1, ?_⟩
  rw [g2]
  dsimp only
  rw [List.append_assoc, List.take_left]

/-- C231 fails for a text that begins with U+FEFF: it is read back without it. -/
theorem C231_not_marked : ∃ w' res v', writeFileAsUtf8 [lx] (encode Uni.utf8 [0xFEFF, 0x61]) demo = .ok (⟨4, 0⟩, w') ∧ readFileAsUtf8 [lx] w' = .ok (res, v') ∧ res.ec = 0 ∧
    res.contents.cells.take res.contents.size = encode Uni.utf8 [0x61] := by
  refine ⟨_, _, _, rfl, rfl, by decide +kernel, by decide +kernel⟩

/-- The hypotheses of `C231_text_partial` are met by the text of the Euro sign. -/
example : Writable demo.tree demo.cwd [lx] ∧ Scalars [0x20AC] ∧ ([0x20AC] : List Nat).head? ≠ some 0xFEFF := ⟨Or.inl (by decide), by intro c hc; rw [List.mem_singleton.1 hc, Scalar]; decide, by decide⟩

end Tm.File
