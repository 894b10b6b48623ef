import Verif.Uni.UcdFacts
import Verif.Uni.Trans
/-!
# Folding and comparing texts
-/
namespace Tm.Uni

/-! ## The specification -/

set_option maxRecDepth 20000

theorem image_check : simpleFolding.all (fun r => (decide (0 ≤ (r.first : Int) + r.delta) && decide ((r.last : Int) + r.delta < 0xD800) &&
    (decide ((r.last : Int) + r.delta < 48) || decide (57 < (r.first : Int) + r.delta))) ||
    (decide (0xE000 ≤ (r.first : Int) + r.delta) && decide ((r.last : Int) + r.delta < 0x10FFFF))) = true := by decide +kernel

theorem full_image_check : fullFolding.all (fun p => p.2.all (fun c => decide (57 < c) && decide (c < 0xD800)) && !p.2.isEmpty && decide (p.2.length ≤ 3)) = true := by
  decide +kernel

theorem digit_check : ∀ c < 58, 48 ≤ c → fullFold c = [c] ∧ simpleFold c = c := by decide +kernel

theorem simpleFold_cases (c : Nat) : simpleFold c = c ∨ ((simpleFold c < 48 ∨ 57 < simpleFold c) ∧ Scalar (simpleFold c) ∧ simpleFold c < 0x10FFFF) := by
  rw [simpleFold]
  cases h : simpleFolding.find? (fun r => r.has c) with
  | none => exact .inl rfl
  | some r =>
    right
    have h1 := List.mem_of_find?_eq_some h
    have h2 := List.find?_some h
    have h3 := List.all_eq_true.1 image_check r h1
    unfold FoldRange.has at h2
    simp only [Bool.and_eq_true, Bool.or_eq_true, decide_eq_true_eq] at h2 h3
    unfold Scalar
    simp only
    omega

theorem simpleFold_scalar {c : Nat} (h : Scalar c) : Scalar (simpleFold c) := by
  rcases simpleFold_cases c with h1 | ⟨-, h1, -⟩
  · rw [h1]; exact h
  · exact h1

theorem lookup_mem {c : Nat} {l : List Nat} (hl : fullFolding.lookup c = some l) : (c, l) ∈ fullFolding := by
  obtain ⟨l1, l2, e, -⟩ := List.lookup_eq_some_iff.1 hl
  rw [e]
  simp

theorem fullFold_cases (c : Nat) : fullFold c = [simpleFold c] ∨ ((∀ x ∈ fullFold c, 57 < x ∧ x < 0xD800) ∧ fullFold c ≠ [] ∧ (fullFold c).length ≤ 3) := by
  rw [fullFold]
  cases h : fullFolding.lookup c with
  | none => exact .inl rfl
  | some l =>
    right
    have h1 := List.all_eq_true.1 full_image_check _ (lookup_mem h)
    simp only [Bool.and_eq_true, List.all_eq_true, decide_eq_true_eq] at h1
    refine ⟨h1.1.1, ?_, h1.2⟩
    intro h2
    simp only at h2
    subst h2
    simp at h1

theorem fullFold_scalar {c : Nat} (h : Scalar c) : Scalars (fullFold c) := by
  intro x hx
  rcases fullFold_cases c with h1 | ⟨h1, -, -⟩
  · rw [h1] at hx
    rw [List.mem_singleton.1 hx]
    exact simpleFold_scalar h
  · exact .inl (h1 x hx).2

theorem fullFold_ne (c : Nat) : fullFold c ≠ [] := by
  rcases fullFold_cases c with h1 | ⟨-, h1, -⟩
  · rw [h1]; simp
  · exact h1

theorem fullFold_length (c : Nat) : (fullFold c).length ≤ 3 := by
  rcases fullFold_cases c with h1 | ⟨-, -, h1⟩
  · rw [h1]; simp
  · exact h1

theorem foldedSimple_scalars {cs : List Nat} (h : Scalars cs) : Scalars (foldedSimple cs) := by
  intro x hx
  obtain ⟨c, h1, rfl⟩ := List.mem_map.1 hx
  exact simpleFold_scalar (h c h1)

theorem foldedFull_scalars {cs : List Nat} (h : Scalars cs) : Scalars (foldedFull cs) := by
  intro x hx
  obtain ⟨c, h1, h2⟩ := List.mem_flatMap.1 hx
  exact fullFold_scalar (h c h1) x h2

/-! ## Transforming -/

/-- What has been written for a list of code points: as long as they fit, all of them; then nothing any more. -/
structure Written (out : List Byte) (fs : List Nat) (x : Xform) : Prop where
  need : x.need = (encode utf8 fs).length
  cells : ∃ k, x.data = (encode utf8 (fs.take k)) ++ out.drop (encode utf8 (fs.take k)).length ∧ (encode utf8 (fs.take k)).length ≤ out.length ∧
    ((x.ec = .ok ∧ k = fs.length ∧ x.size = (encode utf8 fs).length ∧ x.capacity = out.length) ∨
      (x.ec = .erange ∧ k < fs.length ∧ out.length < (encode utf8 (fs.take (k + 1))).length ∧ x.size = 0 ∧ x.capacity = 0))

theorem splice_end {out e f : List Byte} (h : e.length + f.length ≤ out.length) :
    Tm.Num.splice (e ++ out.drop e.length) e.length f = (e ++ f) ++ out.drop (e ++ f).length := by
  unfold Tm.Num.splice
  rw [List.take_left, List.append_assoc, List.append_assoc]
  congr 2
  rw [List.drop_append, List.drop_drop, List.drop_of_length_le (by omega)]
  simp

theorem append_written {out : List Byte} {fs : List Nat} {x : Xform} (h : Written out fs x) {c : Nat} (hc : Scalar c) :
    ∃ y, appendCp c x = .ok y ∧ Written out (fs ++ [c]) y := by
  obtain ⟨k, h1, h2, h3⟩ := h.cells
  have hn := h.need
  have hlen : x.data.length = out.length := by
    rw [h1, List.length_append, List.length_drop]
    omega
  have he : encode utf8 (fs ++ [c]) = encode utf8 fs ++ utf8 c := by rw [encode_append, encode_cons, encode_nil, List.append_nil]
  have hpos := utf8_pos c
  unfold appendCp
  rcases h3 with ⟨g1, rfl, g2, g3⟩ | ⟨g1, g2, g3, g4, g5⟩
  · rw [List.take_length] at h1 h2
    rw [utf8Encode_spec c hc _ _ _ (by rw [hlen]; omega), ok_bind]
    simp only
    rw [g2, g3]
    by_cases hfit : (utf8 c).length ≤ out.length - (encode utf8 fs).length
    · rw [if_pos hfit, if_neg (by omega)]
      refine ⟨_, rfl, ⟨?_, (fs ++ [c]).length, ?_, ?_, .inl ⟨g1, rfl, ?_, rfl⟩⟩⟩
      · rw [hn, he, List.length_append]
      · rw [List.take_length, he, h1]
        exact splice_end (by omega)
      · rw [List.take_length, he, List.length_append]
        omega
      · rw [he, List.length_append]
    · rw [if_neg hfit, if_pos (by omega)]
      refine ⟨_, rfl, ⟨?_, fs.length, ?_, ?_, .inr ⟨rfl, ?_, ?_, rfl, rfl⟩⟩⟩
      · rw [hn, he, List.length_append]
      · rw [List.take_left]
        exact h1
      · rw [List.take_left]
        exact h2
      · simp
      · rw [List.take_of_length_le (by simp), he, List.length_append]
        omega
  · rw [utf8Encode_spec c hc _ _ _ (by rw [g4, g5]; omega), ok_bind]
    simp only
    rw [g4, g5, if_neg (show ¬ (utf8 c).length ≤ 0 - 0 by omega), if_pos (show (utf8 c).length > 0 - 0 by omega)]
    refine ⟨_, rfl, ⟨?_, k, ?_, ?_, .inr ⟨rfl, ?_, ?_, rfl, rfl⟩⟩⟩
    · rw [hn, he, List.length_append]
    · rw [List.take_append_of_le_length (by omega)]
      exact h1
    · rw [List.take_append_of_le_length (by omega)]
      exact h2
    · rw [List.length_append]
      omega
    · rw [List.take_append_of_le_length (by omega)]
      exact g3

/-- A step of the transformation appends what it should. -/
def StepWrites (step : Nat → Xform → C Xform) (fold : Nat → List Nat) : Prop :=
  ∀ out fs x c, Written out fs x → Scalar c → ∃ y, step c x = .ok y ∧ Written out (fs ++ fold c) y

theorem simple_writes : StepWrites foldSimpleStep (fun c => [simpleFold c]) := by
  intro out fs x c h hc
  obtain ⟨e, -, h1, h2, -⟩ := data c (scalar_le hc)
  rw [foldSimpleStep, h1, ok_bind, h2]
  exact append_written h (simpleFold_scalar hc)

theorem run_writes {out : List Byte} : ∀ (l fs : List Nat) (x : Xform) (i fuel : Nat), Written out fs x → Scalars l → l.length < fuel →
    (∀ (j c : Nat), l[j]? = some c → ucdRuns[i + j]? = some c ∧ c ≠ 0) → ucdRuns[i + l.length]? = some 0 →
    ∃ y, runLoop fuel i x = .ok y ∧ Written out (fs ++ l) y := by
  intro l
  induction l with
  | nil =>
    intro fs x i fuel h hs hf h1 h2
    cases fuel with
    | zero => omega
    | succ n =>
      rw [List.length_nil, Nat.add_zero] at h2
      rw [runLoop, rd_eq h2, ok_bind, if_pos rfl]
      exact ⟨x, rfl, by rw [List.append_nil]; exact h⟩
  | cons c l ih =>
    intro fs x i fuel h hs hf h1 h2
    cases fuel with
    | zero => omega
    | succ n =>
      obtain ⟨g1, g2⟩ := h1 0 c rfl
      obtain ⟨s1, s2⟩ := scalars_cons.1 hs
      rw [Nat.add_zero] at g1
      obtain ⟨y, h3, h4⟩ := append_written h s1
      rw [runLoop, rd_eq g1, ok_bind, if_neg g2, h3, ok_bind]
      obtain ⟨z, h5, h6⟩ := ih (fs ++ [c]) y (i + 1) n h4 s2 (by simpa using hf) (fun j d hj => by
        have := h1 (j + 1) d (by simpa using hj)
        rw [show i + 1 + j = i + (j + 1) by omega]
        exact this) (by
        rw [show i + 1 + l.length = i + (c :: l).length by simp; omega]
        exact h2)
      exact ⟨z, h5, by rw [List.append_assoc] at h6; exact h6⟩

theorem full_writes : StepWrites foldStep fullFold := by
  intro out fs x c h hc
  obtain ⟨e, -, h1, h2, h3, h4⟩ := data c (scalar_le hc)
  rw [foldStep, h1, ok_bind]
  by_cases h0 : e.full = 0
  · rw [if_neg (by simpa using h0), h2, h3 h0]
    exact append_written h (simpleFold_scalar hc)
  · rw [if_pos h0, Nat.zero_add]
    have h5 := h4 h0
    refine run_writes _ _ _ _ _ h (fullFold_scalar hc) ?_ h5.at' h5.stop
    have := fullFold_length c
    have : ucdRuns.length = 234 := by decide +kernel
    omega

/-- What is read from bytes, and the rest. -/
inductive Took : List Byte → List Nat → List Byte → Prop where
  | nil {s : List Byte} : utf8Extract s = .ok none → Took s [] s
  | cons {s t r : List Byte} {c : Nat} {cs : List Nat} : utf8Extract s = .ok (some (c, t)) → Scalar c → t.length < s.length → Took t cs r → Took s (c :: cs) r

theorem took_all (n : Nat) : ∀ s : List Byte, s.length ≤ n → ∃ cs r, Took s cs r := by
  induction n with
  | zero =>
    intro s hs
    rw [List.eq_nil_of_length_eq_zero (by omega : s.length = 0)]
    exact ⟨[], [], .nil ext8.empty⟩
  | succ n ih =>
    intro s hs
    rcases ext8.total s with h | ⟨c, t, h, hc, hl⟩
    · exact ⟨[], s, .nil h⟩
    · obtain ⟨cs, r, h1⟩ := ih t (by omega)
      exact ⟨c :: cs, r, .cons h hc hl h1⟩

theorem took_scalars {s r : List Byte} {cs : List Nat} (h : Took s cs r) : Scalars cs := by
  induction h with
  | nil => simp [Scalars]
  | cons _ hc _ _ ih => exact scalars_cons.2 ⟨hc, ih⟩

theorem took_encode {cs : List Nat} (h : Scalars cs) {t : List Byte} (ht : utf8Extract t = .ok none) : Took (encode utf8 cs ++ t) cs t := by
  induction cs with
  | nil => exact .nil ht
  | cons c cs ih =>
    obtain ⟨h1, h2⟩ := scalars_cons.1 h
    rw [encode_cons, List.append_assoc]
    have := utf8_pos c
    exact .cons (utf8Extract_utf8 c h1 _) h1 (by rw [List.length_append (as := utf8 c)]; omega) (ih h2)

theorem loop_writes {step : Nat → Xform → C Xform} {fold : Nat → List Nat} (hstep : StepWrites step fold) {out : List Byte} {s r : List Byte} {cs : List Nat}
    (h : Took s cs r) : ∀ (fs : List Nat) (x : Xform) (fuel : Nat), Written out fs x → s.length < fuel →
    ∃ y, xformLoop step fuel s x = .ok (r, y) ∧ Written out (fs ++ cs.flatMap fold) y := by
  induction h with
  | nil h =>
    intro fs x fuel hx hf
    cases fuel with
    | zero => omega
    | succ n =>
      rw [xformLoop, h, ok_bind]
      exact ⟨x, rfl, by rw [List.flatMap_nil, List.append_nil]; exact hx⟩
  | @cons s t r c cs h hc hl _ ih =>
    intro fs x fuel hx hf
    cases fuel with
    | zero => omega
    | succ n =>
      obtain ⟨y, h1, h2⟩ := hstep out fs x c hx hc
      obtain ⟨z, h3, h4⟩ := ih (fs ++ fold c) y n h2 (by omega)
      rw [xformLoop, h, ok_bind]
      simp only
      rw [h1, ok_bind]
      exact ⟨z, h3, by rw [List.flatMap_cons, ← List.append_assoc]; exact h4⟩

/-- What a transformation does with a text that is read as `cs`. -/
theorem xform_took {step : Nat → Xform → C Xform} {fold : Nat → List Nat} (hstep : StepWrites step fold) {s r : List Byte} {cs : List Nat} (h : Took s cs r)
    (out : List Byte) : ∃ k ec, xform step s out = .ok (((encode utf8 (cs.flatMap fold)).length, ec),
      encode utf8 ((cs.flatMap fold).take k) ++ out.drop (encode utf8 ((cs.flatMap fold).take k)).length) ∧
      (encode utf8 ((cs.flatMap fold).take k)).length ≤ out.length ∧
      ((k = (cs.flatMap fold).length ∧ ec = if r = [] then .ok else .einval) ∨
        (k < (cs.flatMap fold).length ∧ ec = .erange ∧ out.length < (encode utf8 ((cs.flatMap fold).take (k + 1))).length)) := by
  obtain ⟨y, h1, h2⟩ := loop_writes hstep h [] ⟨out, 0, out.length, 0, .ok⟩ (s.length + 1)
    ⟨rfl, 0, by simp [encode_nil], by simp [encode_nil], .inl ⟨rfl, rfl, rfl, rfl⟩⟩ (by omega)
  rw [List.nil_append] at h2
  obtain ⟨k, g1, g2, g3⟩ := h2.cells
  refine ⟨k, if y.ec = .ok ∧ r ≠ [] then .einval else y.ec, ?_, g2, ?_⟩
  · rw [xform, h1, ok_bind]
    simp only
    rw [h2.need, g1]
  · rcases g3 with ⟨e1, e2, -, -⟩ | ⟨e1, e2, e3, -, -⟩
    · left
      refine ⟨e2, ?_⟩
      by_cases hr : r = []
      · rw [if_neg (by simp [hr]), if_pos hr, e1]
      · rw [if_pos ⟨e1, hr⟩, if_neg hr]
    · right
      refine ⟨e2, ?_, e3⟩
      rw [if_neg (by simp [e1]), e1]

end Tm.Uni
