import Verif.Cli.EndLemmas

/-! # Running the parser on concrete command lines -/

namespace Tm.Cli

/-- Call `next` until it returns false. -/
def runs : Nat → Parser → C (List Parsed × Parser)
  | 0, _ => .error .diverge
  | n + 1, p =>
    match next p with
    | .error e => .error e
    | .ok (none, p') => .ok ([], p')
    | .ok (some q, p') =>
      match runs n p' with
      | .error e => .error e
      | .ok (qs, p'') => .ok (q :: qs, p'')

theorem run_of : ∀ {n p ps p'}, runs n p = .ok (ps, p') → Run p ps p'
  | 0, _, _, _, h => nomatch h
  | n + 1, p, ps, p', h => by
    rw [runs] at h
    cases hn : next p with
    | error e => rw [hn] at h; cases h
    | ok r =>
      obtain ⟨_ | q, p₁⟩ := r
      · rw [hn] at h; cases h; exact ⟨p, .nil, hn⟩
      · rw [hn] at h
        simp only at h
        cases hr : runs n p₁ with
        | error e => rw [hr] at h; cases h
        | ok r =>
          obtain ⟨qs, p₂⟩ := r
          rw [hr] at h
          cases h
          obtain ⟨p₃, h1, h2⟩ := run_of hr
          exact ⟨p₃, h1.cons hn, h2⟩

/-- Whether a run on a command line gives what is expected. -/
def gives (argv : List Str) (opts : List Opt) (mem : Mem) (f : List Parsed → Parser → Bool) : Bool :=
  match makeParser argv opts true true mem with
  | .error _ => false
  | .ok p =>
    match runs 20 p with
    | .error _ => false
    | .ok (ps, p') => f ps p'

theorem of_gives {argv opts mem f} (h : gives argv opts mem f = true) :
    ∃ p ps p', makeParser argv opts true true mem = .ok p ∧ Run p ps p' ∧ f ps p' = true := by
  unfold gives at h
  cases hp : makeParser argv opts true true mem with
  | error e => rw [hp] at h; cases h
  | ok p =>
    rw [hp] at h
    simp only at h
    cases hr : runs 20 p with
    | error e => rw [hr] at h; cases h
    | ok r =>
      obtain ⟨ps, p'⟩ := r
      rw [hr] at h
      exact ⟨p, ps, p', rfl, run_of hr, h⟩

/-- `-v` and `--verbose`, without an argument. -/
def verbose : Opt := { short := some [0x76], long := some [0x76, 0x65, 0x72, 0x62, 0x6F, 0x73, 0x65], arg := .none }

/-- `-o` and `--out`, with an argument, required. -/
def out : Opt := { short := some [0x6F], long := some [0x6F, 0x75, 0x74], arg := .required, required := true }

/-- `-n` and `--num`, with a number, at most twice, counted in the cell 7, which sets the flag 4 of the cell 8. -/
def num : Opt :=
  { short := some [0x6E], long := some [0x6E, 0x75, 0x6D], arg := .optional, max := 2, counter := some 7, validator := some argUint,
    outType := .flag, output := some 8, outValue := 4 }

theorem declared : Declared [verbose, out, num] := by
  intro o ho
  simp only [List.mem_cons, List.not_mem_nil, or_false] at ho
  rcases ho with rfl | rfl | rfl <;>
    exact ⟨⟨_, rfl, by unfold CString; decide⟩, fun name h => by cases h; exact ⟨by simp, by unfold CString; decide⟩⟩

/-- `-vo file --num=12 -n` -/
def line : List Str :=
  [[0x2D, 0x76, 0x6F], [0x66, 0x69, 0x6C, 0x65], [0x2D, 0x2D, 0x6E, 0x75, 0x6D, 0x3D, 0x31, 0x32], [0x2D, 0x6E]]

/-- What it says. -/
def said : List Parsed :=
  [⟨some 0, none⟩, ⟨some 1, some [0x66, 0x69, 0x6C, 0x65]⟩, ⟨some 2, some [0x31, 0x32]⟩, ⟨some 2, none⟩]

theorem line_strings : ∀ w ∈ line, CString w := by
  intro w hw
  simp only [line, List.mem_cons, List.not_mem_nil, or_false] at hw
  rcases hw with rfl | rfl | rfl | rfl <;> (unfold CString; decide)

theorem line_gives : gives line [verbose, out, num] (fun _ => 0) (fun ps p' => decide (ps = said) && !p'.error) = true := by decide +kernel

theorem line_run : ∃ p p', makeParser line [verbose, out, num] true true (fun _ => 0) = .ok p ∧ Run p said p' ∧ p'.error = false := by
  obtain ⟨p, ps, p', h1, h2, h3⟩ := of_gives line_gives
  rw [Bool.and_eq_true, decide_eq_true_eq, Bool.not_eq_true'] at h3
  obtain ⟨rfl, h3⟩ := h3
  exact ⟨p, p', h1, h2, h3⟩

end Tm.Cli
