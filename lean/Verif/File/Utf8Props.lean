import Verif.File.PathProps
import Verif.Uni.DynProps

/-! Reading files as UTF-8. What a text is in one of the encodings is said in `Verif.Uni.Spec` and `Verif.Uni.BytesSpec`. -/

namespace Tm.File

open Tm.Uni (Validate Encoding Scheme WellFormed IsUtf8 render)

theorem quiet_read {p : List Byte} {w : World} (hw : Fresh w) (hq : Quiet w) {b : List Byte} (hb : find w.tree w.cwd p = .ok (some (.file b))) (h0 : b ≠ []) :
    ∃ blk spare w', readFile p w = .ok (⟨⟨some blk, b ++ spare, b.length⟩, 0⟩, w') ∧ w'.blocks = blk :: w.blocks ∧ w'.streams = w.streams ∧ w'.dirs = w.dirs ∧ w'.tree = w.tree ∧
      false ∉ w'.allocs := by
  obtain ⟨r, w', e1, h1, h2, h3, h4, h5, h6, h7, h8, h9, h10, h11, _, _, h14⟩ := readFile_spec p w hw
  have hec := h11 hq ⟨b, hb⟩
  obtain ⟨b', g1, g2⟩ := h10 hq.alone hec
  rw [hb] at g1
  injection g1 with g1
  injection g1 with g1
  injection g1 with g1
  subst g1
  have hne : r.contents.block ≠ none := by
    intro hx
    rw [h8 hx] at g2
    exact h0 (by rw [← g2]; rfl)
  obtain ⟨k1, k2⟩ := h7 hne
  obtain ⟨⟨blk, cells, size⟩, ec⟩ := r
  dsimp only at *
  subst hec
  cases blk with
  | none => exact absurd rfl hne
  | some blk =>
    have hs : size = b.length := by rw [← g2, List.length_take, Nat.min_eq_left k1]
    have hc : cells = b ++ cells.drop size := by
      conv => lhs; rw [← List.take_append_drop size cells, g2]
    refine ⟨blk, cells.drop size, w', ?_, h3, h1, h2, h9 hq.alone, fun hx => by cases h14 hq _ hx⟩
    rw [← hc, ← hs]
    exact e1

/-- Part of C215: a file of UTF-8, with or without a byte order mark, is read as its text without the mark, terminated, when nothing goes wrong. What was
allocated is the block that is returned. Missing: what happens when calls or allocations fail; other encodings. -/
theorem C215_text_partial (p : List Byte) (w : World) (hw : Fresh w) (hq : Quiet w) (b s : List Byte) (enc : Encoding) (hb : find w.tree w.cwd p = .ok (some (.file b)))
    (hs : IsUtf8 b .unknown s enc) (hwf : WellFormed Uni.utf8 s) :
    ∃ res w' blk rest, readFileAsUtf8 p w = .ok (res, w') ∧ res.ec = 0 ∧ res.encoding = enc ∧ res.invalid = false ∧ res.contents = ⟨some blk, s ++ [0] ++ rest, s.length⟩ ∧
      w'.blocks = blk :: w.blocks ∧ w'.streams = w.streams ∧ w'.dirs = w.dirs ∧ w'.tree = w.tree := by
  have h0 : b ≠ [] := by
    rcases hs with ⟨rfl, hs, _⟩ | ⟨rfl, hs, _⟩
    · simp [hs]
    · exact hs
  obtain ⟨blk, spare, w1, e1, h1, h2, h3, h4, h5⟩ := quiet_read hw hq hb h0
  rw [readFileAsUtf8, readFileAsUtf8Ex, if_neg (by simp)]
  dsimp only
  rw [e1, ok_bind]
  dsimp only
  rw [if_pos rfl]
  obtain ⟨rest, e2⟩ := Uni.C63_utf8_partial b s .unknown enc hs hwf .error [] (by simp) true spare w1.junk w1.allocs h5
  rw [show (some blk).isNone = false from rfl, e2, ok_bind, adopt]
  dsimp only
  rw [if_neg (by simp), destroyContents]
  dsimp only [noContents]
  rw [ok_bind]
  exact ⟨_, w1, blk, rest, rfl, rfl, rfl, rfl, by simp, h1, h2, h3, h4⟩

/-- The bytes of the file `f`, after a mark. -/
def demoText : World := { demo with tree := place demoTree [[la], [lf]] (some (.file [0xEF, 0xBB, 0xBF, 0x41])) }

example : Fresh demoText ∧ Quiet demoText ∧ find demoText.tree demoText.cwd [lf] = .ok (some (.file [0xEF, 0xBB, 0xBF, 0x41])) ∧ IsUtf8 [0xEF, 0xBB, 0xBF, 0x41] .unknown [0x41] .utf8bom ∧
    WellFormed Uni.utf8 [0x41] :=
  ⟨⟨demo_fresh.1, demo_fresh.2, demo_fresh.3⟩, ⟨demo_quiet.1, demo_quiet.2⟩, by decide, Or.inl ⟨by decide, by simp, by simp, rfl⟩, ⟨[0x41], (fun c hc => by rw [List.mem_singleton.1 hc]; decide), by decide⟩⟩

/-- A file that should be UTF-8 and is not is refused, and nothing that was allocated remains, when nothing else goes wrong. -/
theorem C215_refused (p : List Byte) (w : World) (hw : Fresh w) (hq : Quiet w) (b s : List Byte) (enc : Encoding) (hb : find w.tree w.cwd p = .ok (some (.file b)))
    (hs : IsUtf8 b .unknown s enc) (hwf : ¬ WellFormed Uni.utf8 s) :
    ∃ res w', readFileAsUtf8 p w = .ok (res, w') ∧ res.ec = EINVAL ∧ res.invalid = true ∧ res.contents = ⟨none, [], 0⟩ ∧
      w'.blocks = w.blocks ∧ w'.streams = w.streams ∧ w'.dirs = w.dirs ∧ w'.tree = w.tree := by
  have h0 : b ≠ [] := by
    rcases hs with ⟨rfl, hs, _⟩ | ⟨rfl, hs, _⟩
    · simp [hs]
    · exact hs
  obtain ⟨blk, spare, w1, e1, h1, h2, h3, h4, h5⟩ := quiet_read hw hq hb h0
  rw [readFileAsUtf8, readFileAsUtf8Ex, if_neg (by simp)]
  dsimp only
  rw [e1, ok_bind]
  dsimp only
  rw [if_pos rfl]
  obtain ⟨data, hd, e2⟩ := Uni.C63_refused b s .unknown enc hs hwf [] true spare w1.junk w1.allocs
  rw [show (some blk).isNone = false from rfl, e2, ok_bind, adopt]
  dsimp only
  rw [if_pos rfl]
  dsimp only
  rw [destroy_spec (bs := w.blocks) ⟨⟨blk, rfl, h1⟩, by dsimp only; rw [List.length_append]; omega, by dsimp only; rw [List.length_append]; have := List.length_pos_iff.2 h0; omega⟩, ok_bind]
  exact ⟨_, _, rfl, rfl, rfl, rfl, rfl, h2, h3, h4⟩

example : IsUtf8 [0xC0, 0x41] .unknown [0xC0, 0x41] .utf8 ∧ ¬ WellFormed Uni.utf8 [0xC0, 0x41] := by
  refine ⟨Or.inr ⟨rfl, by simp, Or.inr ⟨rfl, fun sch => ?_⟩, rfl⟩, fun h => ?_⟩
  · rintro ⟨t, _, h⟩
    cases sch <;> exact absurd (congrArg List.head? h) (by simp [Scheme.mark, Uni.utf8, Uni.be16, Uni.le16, Uni.be32, Uni.le32])
  · exact absurd ((Uni.C35_utf8_iff _).2 h) (by decide +kernel)

/-- C215 fails when reading fails after something was read: an error is returned without contents, and the block with what was read is lost. -/
theorem C215_not_leaked : ∃ w : World, Fresh w ∧ Alone w ∧ ∃ res w', readFileAsUtf8 [lf] w = .ok (res, w') ∧ res.ec ≠ 0 ∧ res.contents.block = none ∧ w'.blocks ≠ w.blocks := by
  refine ⟨{ demo with plan := [{}, { fail := true, amount := 2 }] }, ⟨demo_fresh.1, demo_fresh.2, demo_fresh.3⟩, ?_, _, _, rfl, ?_⟩
  · intro e he
    rcases List.mem_cons.1 he with rfl | he
    · rfl
    · rw [List.mem_singleton.1 he]
  · decide

/-- C215 fails when there is no memory for the terminator: the block with the file is freed twice. -/
theorem C215_not_freed : ∃ w : World, Fresh w ∧ Alone w ∧ NoFail w ∧ find w.tree w.cwd [lf] = .ok (some (.file [1, 2, 3])) ∧ readFileAsUtf8 [lf] w = .error .invalid :=
  ⟨{ demo with allocs := [true, false] }, ⟨demo_fresh.1, demo_fresh.2, demo_fresh.3⟩, demo_quiet.alone, demo_quiet.noFail, by decide, of_fault (by decide +kernel)⟩

end Tm.File
