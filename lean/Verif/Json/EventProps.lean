import Verif.Json.DepthLemmas
import Verif.Json.EmitLemmas
import Verif.Json.ParseLemmas
import Verif.Json.RoomLemmas
import Verif.Json.Props

/-!
# Properties of reading JSON token by token

`events` makes a reader with memory for a number of context entries and calls `jsonNextToken` until it returns `JTOK_EOF` or
`JTOK_ERROR`. The specification is in `Verif.Json.EventSpec`.
-/

namespace Tm.Json

open Tm Spec

theorem start_at (s : List Byte) (cap : Nat) : At (makeEvents s cap) [] := ⟨rfl, Nat.zero_le _⟩

theorem fits_compress {cap : Nat} {j : Json} (h : Fits cap j) : ∀ q ∈ nestings [] j, (compress q).length ≤ cap := by
  intro q hq
  obtain ⟨k, h1, h2⟩ := h q hq
  rw [entries_compress h1]
  exact h2

/-- Without a number that is cut off, reading tokens never leaves the memory. -/
theorem readEvents_ok : ∀ (fuel : Nat) (e : EReader) (p : List Bool), At e p → e.r.rest.length < fuel → ¬ BadEnd e.r.rest →
    ∃ out, readEvents strict fuel e = .ok out := by
  intro fuel
  induction fuel with
  | zero => intro _ _ _ h; omega
  | succ fuel ih =>
    intro e p h hf hb
    have hg := nextEvent_good strict e p h
    have hx : ∃ x, nextEvent strict e = .ok x ∧ (x.1 ≠ .error → x.2.r.rest <:+ e.r.rest) := by
      unfold nextEvent
      rw [h.top]
      have hres := nextToken_res (ctxAt p) e.r
      generalize nextToken strict (ctxAt p) e.r = y at hres
      cases hres with
      | oob h => exact absurd h hb
      | @error r' _ =>
        obtain ⟨y, h1, _⟩ := track_moves h (.error, r')
        rw [track_other r' (by simp) (by simp) (by simp) (by simp)] at h1
        rw [ok_bind, track_other r' (by simp) (by simp) (by simp) (by simp)]
        exact ⟨_, rfl, fun h => absurd rfl h⟩
      | @tok tok r' l sep body hs hx hr _ _ =>
        rw [ok_bind]
        obtain ⟨y, h1, _, h2⟩ := track_moves h (tok, r')
        refine ⟨y, h1, fun hne => ?_⟩
        rcases h2 with h2 | ⟨_, h2, _⟩
        · exact absurd h2.1 hne
        · rw [h2, hr]
          exact ⟨sep ++ body, by simp⟩
    obtain ⟨x, hx, hsuf⟩ := hx
    rw [readEvents, hx, ok_bind]
    have hg := hg.2 _ hx
    split
    · exact ⟨_, rfl⟩
    · rename_i hc
      simp at hc
      obtain ⟨_, hg | hg | ⟨hlt, _, _, _, p', hat, _⟩⟩ := hg
      · exact absurd hg hc.2
      · exact absurd hg.1 hc.1
      · obtain ⟨out, ho⟩ := ih x.2 p' hat (by omega) fun h => hb (h.suffix (hsuf hc.2))
        rw [ho, ok_bind]
        exact ⟨_, rfl⟩

/-- Texts that the reader of documents rejects are no JSON texts. -/
theorem not_json {s : List Byte} (h : ∃ doc, allocateDocument strict 4096 s = .ok doc ∧ doc.err ≠ .ok) : ¬ IsJson s := by
  intro hj
  obtain ⟨doc, e, he⟩ := h
  obtain ⟨doc', e', he'⟩ := (C65_accepted_iff_json 4096 s).mpr hj
  rw [e] at e'
  injection e' with e'
  subst e'
  exact he he'

/-! ### C74 -/

/-- C74: for every JSON text, and memory with room for its nesting, the tokens report its brackets, names and values in the order of the
text, and then the end. -/
theorem C74_events (cap : Nat) (j : Json) (s : List Byte) (ht : Text Any Any j s) (hf : Fits cap j) :
    ∃ out r, events strict cap s = .ok (out ++ [(.eof, r)]) ∧ List.Forall₂ Reports out (evs j) ∧ r.err = .ok ∧ r.rest = [] := by
  obtain ⟨a, v, b, ha, hv, hb, rfl⟩ := ht
  obtain ⟨out, e', m⟩ := emit_value hv [] (makeEvents (a ++ (v ++ b)) cap) .eof a b (start_at _ _) (.ws ha) trivial rfl (stop_white hb)
    (fun _ => rfl) rfl (fits_compress hf)
  obtain ⟨r', e2, h1, h2⟩ := tok_eof (r := e'.r) (by rw [m.rest]; exact hb)
  have hn := nextEvent_other m.at' (show nextToken strict (ctxAt []) e'.r = _ from e2) (by simp) (by simp) (by simp) (by simp)
  refine ⟨out, r', ?_, m.reports, h2.trans m.err, h1⟩
  have hlen := (run_length m.run [] (start_at _ _)).1
  exact run_read m.run hn (Or.inl rfl) _ (Nat.lt_succ_of_le (Nat.le_trans (Nat.le_add_left _ _) hlen))

theorem sample_fits : Fits 2 sampleJson := by
  intro p hp
  have hn : nestings [] sampleJson = [[true], [false, true]] := rfl
  rw [hn] at hp
  have h1 : Entries [true] 1 := Entries.run (o := true) (n := 1) (p := []) (k := 0) (by simp) (by decide) .nil
  simp only [List.mem_cons, List.not_mem_nil, or_false] at hp
  rcases hp with rfl | rfl
  · exact ⟨1, h1, by decide⟩
  · exact ⟨2, Entries.run (o := false) (n := 1) (p := [true]) (k := 1) (by simp) (by decide) h1, by decide⟩

example : Text Any Any sampleJson sampleText ∧ Fits 2 sampleJson := ⟨sample_text trivial trivial trivial, sample_fits⟩

/-- C74: in particular, memory with an entry for each level of brackets suffices. -/
theorem C74_depth (cap : Nat) (j : Json) (s : List Byte) (ht : Text Any Any j s) (hd : depth j ≤ cap) :
    ∃ out r, events strict cap s = .ok (out ++ [(.eof, r)]) ∧ List.Forall₂ Reports out (evs j) ∧ r.err = .ok ∧ r.rest = [] := by
  refine C74_events cap j s ht fun p hp => ⟨_, entries_exists p, ?_⟩
  have h1 := compress_le p
  have h2 := nestings_depth j [] p hp
  simp only [List.length_nil] at h2
  omega

example : depth sampleJson = 2 := rfl

/-! ### C75 -/

/-- C75: every JSON text is read to its end without an error, if there is an entry for each of its bytes. -/
theorem C75_json_is_accepted (s : List Byte) (h : IsJson s) : ∃ out r, events strict s.length s = .ok (out ++ [(.eof, r)]) ∧ r.err = .ok := by
  obtain ⟨j, h⟩ := h
  have hd : depth j ≤ s.length := by
    obtain ⟨a, v, b, _, hv, _, rfl⟩ := h
    have := depth_value hv
    simp only [List.length_append]
    omega
  obtain ⟨out, r, e, _, he, _⟩ := C74_depth s.length j s h hd
  exact ⟨out, r, e, he⟩

/-- C75: what is read to its end consists of values in a row, with nothing but white space around them, of which at most one is not a
string. -/
theorem C75_accepted_partial (cap : Nat) (s : List Byte) (out : List (Tok × Reader)) (r : Reader)
    (h : events strict cap s = .ok (out ++ [(.eof, r)])) : ∃ js, Row js s ∧ (js.filter fun j => !IsStr j).length ≤ 1 := by
  obtain ⟨xs, e', y, e1, e2, e3, _⟩ := (readEvents_run strict (s.length + 1) (makeEvents s cap) [] (start_at s cap) (Nat.lt_succ_self _)).2 _ h
  have e4 := (List.append_inj' e1 rfl).2
  simp only [List.cons.injEq, Prod.mk.injEq, and_true] at e4
  obtain ⟨p, hp⟩ := run_reading e2 (reading_start s cap)
  exact (reading_step hp e3 (by rw [← e4.1]; nofun)).2 e4.1.symm

/-- C75: so if it is one value, it is a JSON text. -/
theorem C75_one_value_partial (cap : Nat) (s : List Byte) (out : List (Tok × Reader)) (r : Reader)
    (h : events strict cap s = .ok (out ++ [(.eof, r)])) (hone : ∀ js, Row js s → js.length = 1) : IsJson s := by
  obtain ⟨js, h1, _⟩ := C75_accepted_partial cap s out r h
  have hl := hone js h1
  cases h1 with
  | nil => cases hl
  | @cons a j v js t ha hv ht =>
    cases ht with
    | nil hb => exact ⟨j, a, v, _, ha, hv, hb, rfl⟩
    | cons _ _ _ => simp at hl

example : ∃ out r, events strict 2 sampleText = .ok (out ++ [(.eof, r)]) := by
  obtain ⟨out, r, h, _⟩ := C74_events 2 sampleJson sampleText (sample_text trivial trivial trivial) sample_fits
  exact ⟨out, r, h⟩

/-- C75 fails: two strings are read to the end without an error. -/
theorem C75_not_strings : ¬ IsJson (ascii "\"a\"\"b\"") ∧
    ∃ out r, events strict 1 (ascii "\"a\"\"b\"") = .ok (out ++ [(.eof, r)]) ∧ r.err = .ok :=
  ⟨not_json ⟨_, rfl, nofun⟩, [(.value, _), (.value, _)], _, rfl, rfl⟩

/-- C75 fails: an array and a string are read to the end without an error. -/
theorem C75_not_array_and_string : ¬ IsJson (ascii "[1]\"a\"") ∧
    ∃ out r, events strict 1 (ascii "[1]\"a\"") = .ok (out ++ [(.eof, r)]) ∧ r.err = .ok :=
  ⟨not_json ⟨_, rfl, nofun⟩, [(.arrStart, _), (.value, _), (.arrEnd, _), (.value, _)], _, rfl, rfl⟩

/-- C75 fails: the empty text is read to the end without an error. -/
theorem C75_not_empty : ¬ IsJson [] ∧ ∃ out r, events strict 1 [] = .ok (out ++ [(.eof, r)]) ∧ r.err = .ok :=
  ⟨not_json ⟨_, rfl, nofun⟩, [], _, rfl, rfl⟩

/-! ### C76 -/

/-- C76: `out` is what is read with an entry for each byte of the text. With other memory the same is read, if it has room for all brackets
that are open at any time; otherwise the same is read up to the first bracket for which there is no room, and there the error is that of
missing memory. -/
theorem C76_memory (f : Flags) (big cap : Nat) (s : List Byte) (out : List (Tok × Reader)) (hbig : s.length ≤ big)
    (h : events f big s = .ok out) :
    (Room cap (out.map Prod.fst) → events f cap s = .ok out) ∧
    (¬ Room cap (out.map Prod.fst) → ∃ xs y ys r, out = xs ++ y :: ys ∧ Room cap (xs.map Prod.fst) ∧ ¬ Room cap ((xs ++ [y]).map Prod.fst) ∧
      events f cap s = .ok (xs ++ [(.error, r)]) ∧ r.err = .outOfContext) := by
  have key := less_read f cap (s.length + 1) (makeEvents s big) [] out (start_at _ _) (by
    show 0 + s.length ≤ big
    omega) (Nat.zero_le _) h
  simp only [roomFrom_iff] at key
  exact key

/-- The tokens of the sample text. -/
def sampleToks : List Tok :=
  [.objStart, .propName, .arrStart, .value, .value, .arrEnd, .propName, .value, .objEnd, .eof]

/-- Both cases of C76 occur: the sample text has room in two entries, but not in one. -/
theorem sample_room : ∃ out, events strict sampleText.length sampleText = .ok out ∧ Room 2 (out.map Prod.fst) ∧ ¬ Room 1 (out.map Prod.fst) := by
  have h : (events strict sampleText.length sampleText).map (·.map Prod.fst) = .ok sampleToks := by decide +kernel
  cases he : events strict sampleText.length sampleText with
  | error z => rw [he] at h; cases h
  | ok out =>
    rw [he] at h
    injection h with h
    dsimp only at h
    refine ⟨out, rfl, ?_⟩
    rw [h, ← roomFrom_iff, ← roomFrom_iff]
    constructor
    · intro us hu
      rw [List.prefix_iff_eq_take] at hu
      rw [hu]
      have hl : ∀ n, n < 11 → (compress (openAfter [] (sampleToks.take n))).length ≤ 2 := by decide
      by_cases hn : us.length < 11
      · exact hl _ hn
      · rw [List.take_of_length_le (by show 10 ≤ _; omega)]
        decide
    · intro h
      exact absurd (h [.objStart, .propName, .arrStart] (by decide)) (by decide)

/-- The documentation says that the error only occurs if there are more changes between objects and arrays than
entries; but here only arrays are nested, and the error occurs with one entry. -/
theorem C76_needs_an_entry_per_255 : ∃ xs r, events strict 1 (List.replicate 256 (chr '[')) = .ok (xs ++ [(.error, r)]) ∧ r.err = .outOfContext := by
  have h : (events strict 1 (List.replicate 256 (chr '['))).map (fun out => out.getLast?.map fun x => (x.1, x.2.err)) =
    .ok (some (.error, .outOfContext)) := by decide +kernel
  cases he : events strict 1 (List.replicate 256 (chr '[')) with
  | error z => rw [he] at h; cases h
  | ok out =>
    rw [he] at h
    injection h with h
    dsimp only at h
    cases hl : out.getLast? with
    | none => rw [hl] at h; cases h
    | some x =>
      rw [hl] at h
      simp only [Option.map_some, Option.some.injEq, Prod.mk.injEq] at h
      obtain ⟨xs, hxs⟩ := List.getLast?_eq_some_iff.mp hl
      obtain ⟨t, r⟩ := x
      dsimp only at h
      exact ⟨xs, r, by rw [hxs, h.1], h.2⟩

/-! ### C77 -/

/-- C77: the brackets that are read match: what is read can be completed so that it is balanced, whatever the flags, the memory and the
text. -/
theorem C77_brackets (f : Flags) (cap : Nat) (s : List Byte) (out : List (Tok × Reader)) (h : events f cap s = .ok out) :
    ∃ xs y rest, out.map Prod.fst = xs ++ [y] ∧ (y = .eof ∨ y = .error) ∧ Balanced (xs ++ rest) ∧ (y = .eof → rest = []) := by
  obtain ⟨xs, e', y, rfl, e2, e3, e4⟩ := (readEvents_run f (s.length + 1) (makeEvents s cap) [] (start_at s cap) (Nat.lt_succ_self _)).2 _ h
  have hat := (run_after e2 (start_at s cap)).1
  have key : ∀ ts, Closes (openAfter [] (toks xs)) ts → Balanced (toks xs ++ ts) := by
    intro ts hts
    have := run_closes e2 (start_at s cap) hts
    generalize hp : ([] : List Bool) = p at this
    generalize toks xs ++ ts = us at this
    cases this with
    | nil h => exact h
    | cons => cases hp
  by_cases hy : y.1 = .eof
  · refine ⟨toks xs, y.1, [], by simp [toks], e4, ?_, fun _ => rfl⟩
    have hp : openAfter [] (toks xs) = [] := by
      rcases ((nextEvent_good f e' _ hat).2 _ e3).2 with h | h | h
      · rw [h] at hy; cases hy
      · exact h.2.1
      · exact absurd hy h.2.1
    exact key [] (by rw [hp]; exact .nil .nil)
  · exact ⟨toks xs, y.1, _, by simp [toks], e4, key _ (closes_all _), fun h => absurd h hy⟩

example : ∃ out, events { strict with comments := true } 1 (ascii "[//]\n]") = .ok out ∧ out.map Prod.fst = [.arrStart, .comment, .arrEnd, .eof] := ⟨_, rfl, rfl⟩

/-- C77: reading tokens comes to an end, whatever the flags, the memory and the text. -/
theorem C77_ends (f : Flags) (cap : Nat) (s : List Byte) : events f cap s ≠ .error .diverge :=
  (readEvents_run f (s.length + 1) (makeEvents s cap) [] (start_at s cap) (Nat.lt_succ_self _)).1

/-! ### C78 -/

/-- C78, partial: missing are texts that end within the exponent of a number, and other flags. For all others, with any memory, reading
tokens stays within the text and the memory, no assertion fails, and it ends. -/
theorem C78_safe_partial (cap : Nat) (s : List Byte) (h : ¬ CutNumber s) : ∃ out, events strict cap s = .ok out := by
  refine readEvents_ok (s.length + 1) (makeEvents s cap) [] (start_at s cap) (Nat.lt_succ_self _) ?_
  rintro ⟨p, d, t, hd, ⟨e, he, ht⟩, hs⟩
  refine h ⟨p, d, e, t.drop 1, hd, he, ?_, ?_⟩
  · rcases ht with rfl | rfl | rfl
    · exact Or.inl rfl
    · exact Or.inr (Or.inl rfl)
    · exact Or.inr (Or.inr rfl)
  · show (makeEvents s cap).r.rest = _
    rw [hs]
    rcases ht with rfl | rfl | rfl <;> rfl

/-- C78 fails: for the text `1e` the program reads behind the end of the text. -/
theorem C78_not_safe (cap : Nat) : events strict cap (ascii "1e") = .error .oob := rfl


end Tm.Json
