import Verif.Json.EventLemmas

/-! # The tokens of a JSON text -/

namespace Tm.Json

open Tm Spec

variable {P Q : List Byte → Prop}

theorem nextEvent_tok {e : EReader} {p : List Bool} {tok : Tok} {r' : Reader} (h : At e p)
    (hn : nextToken strict (ctxAt p) e.r = .ok (tok, r')) : nextEvent strict e = track e (tok, r') := by
  unfold nextEvent
  rw [h.top, hn, ok_bind]

theorem nextEvent_other {e : EReader} {p : List Bool} {tok : Tok} {r' : Reader} (h : At e p)
    (hn : nextToken strict (ctxAt p) e.r = .ok (tok, r')) (h1 : tok ≠ .objStart) (h2 : tok ≠ .arrStart) (h3 : tok ≠ .objEnd)
    (h4 : tok ≠ .arrEnd) : nextEvent strict e = .ok (tok, { e with r := r' }) := by
  rw [nextEvent_tok h hn, track_other r' h1 h2 h3 h4]

/-- The tokens of a value were read. -/
structure Emitted (p : List Bool) (e : EReader) (vs : List Ev) (k : List Byte) (out : List (Tok × Reader)) (e' : EReader) : Prop where
  run : Run strict e out e'
  reports : List.Forall₂ Reports out vs
  at' : At e' p
  cap : e'.cap = e.cap
  rest : e'.r.rest = k
  ends : Ends e'.r.last
  err : e'.r.err = .ok

theorem Emitted.append {p p' : List Bool} {e e1 e2 : EReader} {vs ws : List Ev} {k k' : List Byte} {o1 o2 : List (Tok × Reader)}
    (h1 : Emitted p e vs k o1 e1) (h2 : Emitted p' e1 ws k' o2 e2) : Emitted p' e (vs ++ ws) k' (o1 ++ o2) e2 :=
  ⟨h1.run.append h2.run, List.rel_append h1.reports h2.reports, h2.at', h2.cap.trans h1.cap, h2.rest, h2.ends, h2.err⟩

/-- What is to be shown for a value. -/
def EmitsValue (j : Json) (v : List Byte) : Prop :=
  ∀ (p : List Bool) (e : EReader) (l : Tok) (sep k : List Byte), At e p → Sep (ctxAt p) e.r.last l sep → CanValue (ctxAt p) l →
    e.r.rest = sep ++ (v ++ k) → Stop k → (p = [] → e.r.root = false) → e.r.err = .ok →
    (∀ q ∈ nestings p j, (compress q).length ≤ e.cap) → ∃ out e', Emitted p e (evs j) k out e'

theorem emit_scal {j : Json} {v : List Byte} {ty : VType} (hs : Scal j v ty)
    (hrep : ∀ r : Reader, r.vtype = ty → (r.rest ≠ [] ∨ ty = .bool ∨ ty = .null → Shows r.cur v) →
      List.Forall₂ Reports [(.value, r)] (evs j)) : EmitsValue j v := by
  intro p e l sep k h hsep hl hr hk hroot he _
  obtain ⟨q1, a, e1, h1, ha, h2, h3, h4⟩ := sep_elim hsep hr
  have hctx : ctxAt p = .null → q1.root = false := by
    intro hc
    cases p with
    | nil => exact h4.trans (hroot rfl)
    | cons o p => cases o <;> cases hc
  obtain ⟨r', e2, g1, g2, g3, g4, g5, g6, g7⟩ := tok_scal h1 ha hs hk (h2 ▸ hl) hctx
  have hn := nextEvent_other h (e1.trans e2) (by simp) (by simp) (by simp) (by simp)
  refine ⟨_, _, Run.one hn (by simp) (by simp), hrep r' g4 ?_, ⟨h.stack, h.room⟩, rfl, g1, Or.inr (Or.inr g2), (g3.trans h3).trans he⟩
  intro hne
  rw [g1] at hne
  exact ⟨g5, view_text g6 (g7 hne)⟩

theorem emit_str {raw text : List Byte} (hb : Body raw text) : EmitsValue (.str text) (quoted raw) := by
  intro p e l sep k h hsep hl hr hk hroot he _
  obtain ⟨q1, a, e1, h1, ha, h2, h3, h4⟩ := sep_elim hsep hr
  obtain ⟨r', e2, g1, g2, g3, g4, g5⟩ := tok_str h1 ha hb (h2 ▸ hl)
  have hn := nextEvent_other h (e1.trans e2) (by simp) (by simp) (by simp) (by simp)
  refine ⟨_, _, Run.one hn (by simp) (by simp), ?_, ⟨h.stack, h.room⟩, rfl, g1, Or.inr (Or.inr g2), (g3.trans h3).trans he⟩
  unfold evs
  refine .cons ⟨rfl, g4, raw, hb, ?_⟩ .nil
  dsimp only
  rw [g5]
  exact ⟨rfl, view_text rfl rfl⟩

/-- An opening bracket. -/
theorem emit_start (o : Bool) {p : List Bool} {e : EReader} {l : Tok} {sep k : List Byte} (h : At e p)
    (hsep : Sep (ctxAt p) e.r.last l sep) (hl : CanValue (ctxAt p) l) (hr : e.r.rest = sep ++ opening o :: k)
    (hroot : p = [] → e.r.root = false) (hc : (compress (o :: p)).length ≤ e.cap) :
    ∃ e', Run strict e [(startTok o, e'.r)] e' ∧ At e' (o :: p) ∧ e'.cap = e.cap ∧ e'.r.rest = k ∧ e'.r.last = startTok o ∧
      e'.r.err = e.r.err := by
  obtain ⟨q1, a, e1, h1, ha, h2, h3, h4⟩ := sep_elim hsep hr
  have hctx : ctxAt p = .null → q1.root = false := by
    intro hc
    cases p with
    | nil => exact h4.trans (hroot rfl)
    | cons o p => cases o <;> cases hc
  obtain ⟨r', e2, g1, g2, g3⟩ := tok_start o h1 ha (h2 ▸ hl) hctx
  have hn := nextEvent_tok h (e1.trans e2)
  have ht := track_start h o r'
  rw [if_pos hc] at ht
  exact ⟨_, Run.one (hn.trans ht) (by cases o <;> simp [startTok]) (by cases o <;> simp [startTok]), At.push hc r', rfl, g1, g2, g3.trans h3⟩

/-- A closing bracket. -/
theorem emit_end (o : Bool) {p : List Bool} {e : EReader} {b k : List Byte} (h : At e (o :: p)) (hb : Ws b)
    (hr : e.r.rest = b ++ closing o :: k) (hl : CanEnd e.r.last) :
    ∃ e', Run strict e [(endTok o, e'.r)] e' ∧ At e' p ∧ e'.cap = e.cap ∧ e'.r.rest = k ∧ Ends e'.r.last ∧ e'.r.err = e.r.err := by
  obtain ⟨r', e2, g1, g2, g3⟩ := tok_end o hr hb hl
  have hn := nextEvent_tok h (show nextToken strict (ctxAt (o :: p)) e.r = _ from e2)
  have ht := track_end h r'
  refine ⟨_, Run.one (hn.trans ht) (by cases o <;> simp [endTok]) (by cases o <;> simp [endTok]), h.pop r', rfl, g1, ?_, g3⟩
  dsimp only
  rw [g2]
  cases o
  · exact Or.inr (Or.inl rfl)
  · exact Or.inl rfl

theorem ends_canEnd {l : Tok} (h : Ends l) : CanEnd l := by
  rcases h with h | h | h <;> rw [h] <;> exact ⟨by simp, by simp, by simp⟩

/-- The elements or members of a container, behind its opening bracket. -/
theorem emit_container {o : Bool} {j : Json} {w : List Byte} {vs : List Ev} (hj : evs j = .start o :: (vs ++ [.stop o]))
    (hnest : ∀ p, nestings p j = (o :: p) :: (nestings p j).tail)
    (hin : ∀ (p : List Bool) (e : EReader) (k : List Byte), At e (o :: p) → e.r.last = startTok o → e.r.err = .ok →
      e.r.rest = w ++ closing o :: k → (∀ q ∈ (nestings p j).tail, (compress q).length ≤ e.cap) →
      ∃ out e' b, Run strict e out e' ∧ List.Forall₂ Reports out vs ∧ At e' (o :: p) ∧ e'.cap = e.cap ∧ Ws b ∧
        e'.r.rest = b ++ closing o :: k ∧ CanEnd e'.r.last ∧ e'.r.err = .ok) :
    EmitsValue j (opening o :: (w ++ [closing o])) := by
  intro p e l sep k h hsep hl hr hk hroot he hfit
  rw [hnest p] at hfit
  obtain ⟨e1, r1, a1, c1, g1, g2, g3⟩ := emit_start o (k := w ++ closing o :: k) h hsep hl
    (by rw [hr, List.cons_append, List.append_assoc]; rfl) hroot (hfit _ (by simp))
  obtain ⟨out, e2, b, r2, f2, a2, c2, hb, i1, i2, i3⟩ := hin p e1 k a1 g2 (g3.trans he) g1
    (fun q hq => by rw [c1]; exact hfit q (List.mem_cons_of_mem _ hq))
  obtain ⟨e3, r3, a3, c3, k1, k2, k3⟩ := emit_end o a2 hb i1 i2
  refine ⟨_, e3, (r1.append r2).append r3, ?_, a3, (c3.trans c2).trans c1, k1, k2, k3.trans i3⟩
  rw [hj]
  refine .cons ?_ (List.rel_append f2 (.cons ?_ .nil))
  · rfl
  · rfl

mutual

theorem emit_value : ∀ {j : Json} {v : List Byte}, Value P Q j v → EmitsValue j v
  | _, _, .null => emit_scal .null fun r h1 h2 => by
      unfold evs
      exact .cons ⟨rfl, h1, h2 (by simp)⟩ .nil
  | _, _, .bool b => by
      refine emit_scal (ty := .bool) (by cases b <;> exact .bool _) fun r h1 h2 => ?_
      unfold evs
      exact .cons ⟨rfl, h1, h2 (by simp)⟩ .nil
  | _, _, .num h => emit_scal (.num h) fun r h1 h2 => by
      unfold evs
      exact .cons ⟨rfl, ⟨_, _, _, _, h, rfl, h1⟩, fun h => h2 (Or.inl h)⟩ .nil
  | _, _, .str hb _ => emit_str hb
  | _, _, .arrNil (a := a) ha => by
      refine emit_container (o := false) (w := a) (vs := []) (by simp [evs, evsItems]) (fun p => by simp [nestings]) ?_
      intro p e k h hl he hr _
      exact ⟨[], e, a, .nil, .nil, h, rfl, ha, hr, by rw [hl]; exact ⟨nofun, nofun, nofun⟩, he⟩
  | _, _, .arr (a := a) (b := b) (j := j) (v := v) (js := js) (t := t) ha hv ht hb => by
      have ihv := emit_value hv
      have iht := emit_items ht
      have := emit_container (o := false) (w := a ++ (v ++ (t ++ b))) (j := .arr (j :: js)) (vs := evs j ++ evsItems js)
        (by simp [evs, evsItems]) (fun p => by simp [nestings]) ?_
      · simpa [chr, opening, closing] using this
      · intro p e k h hl he hr hfit
        simp only [nestings, nestingsItems, List.tail_cons, List.mem_append] at hfit
        obtain ⟨o1, e1, m1⟩ := ihv (false :: p) e .arrStart a (t ++ (b ++ closing false :: k)) h (by rw [hl]; exact .ws ha)
          (Or.inl rfl) (by rw [hr]; simp only [List.append_assoc]) (stop_values ht false hb) (by simp) he
          (fun q hq => hfit q (Or.inl hq))
        obtain ⟨o2, e2, m2⟩ := iht p e1 b k m1.at' m1.ends m1.err m1.rest hb (fun q hq => by rw [m1.cap]; exact hfit q (Or.inr hq))
        have m := m1.append m2
        exact ⟨_, e2, b, m.run, m.reports, m.at', m.cap, hb, m.rest, ends_canEnd m.ends, m.err⟩
  | _, _, .objNil (a := a) ha => by
      refine emit_container (o := true) (w := a) (vs := []) (by simp [evs, evsMembers]) (fun p => by simp [nestings]) ?_
      intro p e k h hl he hr _
      exact ⟨[], e, a, .nil, .nil, h, rfl, ha, hr, by rw [hl]; exact ⟨nofun, nofun, nofun⟩, he⟩
  | _, _, .obj (a := a) (b := b) (m := (name, j)) (u := u) (ms := ms) (t := t) ha hm ht hb => by
      have ihm := emit_member hm
      have iht := emit_members ht
      have := emit_container (o := true) (w := a ++ (u ++ (t ++ b))) (j := .obj ((name, j) :: ms))
        (vs := (.name name :: evs j) ++ evsMembers ms) (by simp [evs, evsMembers]) (fun p => by simp [nestings]) ?_
      · simpa [chr, opening, closing] using this
      · intro p e k h hl he hr hfit
        simp only [nestings, nestingsMembers, List.tail_cons, List.mem_append] at hfit
        obtain ⟨o1, e1, m1⟩ := ihm p e .objStart a (t ++ (b ++ closing true :: k)) h (by rw [hl]; exact .ws ha)
          (Or.inl rfl) (by rw [hr]; simp only [List.append_assoc]) (stop_members ht true hb) he
          (fun q hq => hfit q (Or.inl hq))
        obtain ⟨o2, e2, m2⟩ := iht p e1 b k m1.at' m1.ends m1.err m1.rest hb (fun q hq => by rw [m1.cap]; exact hfit q (Or.inr hq))
        have m := m1.append m2
        exact ⟨_, e2, b, m.run, m.reports, m.at', m.cap, hb, m.rest, ends_canEnd m.ends, m.err⟩

theorem emit_member : ∀ {m : List Byte × Json} {u : List Byte}, Member P Q m u →
    ∀ (p : List Bool) (e : EReader) (l : Tok) (sep k : List Byte), At e (true :: p) → Sep .object e.r.last l sep →
      l = .objStart ∨ l = .comma → e.r.rest = sep ++ (u ++ k) → Stop k → e.r.err = .ok →
      (∀ q ∈ nestings (true :: p) m.2, (compress q).length ≤ e.cap) → ∃ out e', Emitted (true :: p) e (.name m.1 :: evs m.2) k out e'
  | _, _, .mk (raw := raw) (name := name) (a := a) (b := b) (j := j) (v := v) hbody _ ha hb hv => by
      have ihv := emit_value hv
      intro p e l sep k h hsep hl hr hk he hfit
      have hr' : e.r.rest = sep ++ (quoted raw ++ (a ++ (0x3A :: (b ++ (v ++ k))))) := by
        rw [hr]
        simp [chr]
      obtain ⟨q1, c, e1, h1, hc, h2, h3, h4⟩ := sep_elim hsep hr'
      obtain ⟨r', e2, g1, g2, g3, g4⟩ := tok_name h1 hc hbody (h2 ▸ hl)
      have hn := nextEvent_other h (show nextToken strict (ctxAt (true :: p)) e.r = _ from e1.trans e2) (by simp) (by simp) (by simp) (by simp)
      have hat : At { e with r := r' } (true :: p) := ⟨h.stack, h.room⟩
      obtain ⟨out, e', m⟩ := ihv (true :: p) { e with r := r' } .colon (a ++ 0x3A :: b) k hat
        (by dsimp only; rw [g2]; exact .colon rfl ha hb) rfl (by dsimp only; rw [g1]; simp) hk (by simp)
        ((g3.trans h3).trans he) hfit
      refine ⟨_, e', (Run.one hn (by simp) (by simp)).append m.run, .cons ⟨rfl, raw, hbody, ?_⟩ m.reports, m.at', m.cap, m.rest, m.ends, m.err⟩
      dsimp only
      rw [g4]
      exact ⟨rfl, view_text rfl rfl⟩

theorem emit_items : ∀ {js : List Json} {t : List Byte}, MoreValues P Q js t →
    ∀ (p : List Bool) (e : EReader) (b k : List Byte), At e (false :: p) → Ends e.r.last → e.r.err = .ok →
      e.r.rest = t ++ (b ++ closing false :: k) → Ws b → (∀ q ∈ nestingsItems (false :: p) js, (compress q).length ≤ e.cap) →
      ∃ out e', Emitted (false :: p) e (evsItems js) (b ++ closing false :: k) out e'
  | _, _, .nil => by
      intro p e b k h hl he hr hb _
      refine ⟨[], e, .nil, ?_, h, rfl, hr, hl, he⟩
      unfold evsItems
      exact .nil
  | _, _, .cons (a := a) (b := c) (j := j) (v := v) (js := js) (t := t) ha hc hv ht => by
      have ihv := emit_value hv
      have iht := emit_items ht
      intro p e b k h hl he hr hb hfit
      simp only [nestingsItems, List.mem_append] at hfit
      obtain ⟨o1, e1, m1⟩ := ihv (false :: p) e .comma (a ++ 0x2C :: c) (t ++ (b ++ closing false :: k)) h
        (.comma nofun hl ha hc) (Or.inr rfl) (by rw [hr]; simp [chr]) (stop_values ht false hb) (by simp) he
        (fun q hq => hfit q (Or.inl hq))
      obtain ⟨o2, e2, m2⟩ := iht p e1 b k m1.at' m1.ends m1.err m1.rest hb (fun q hq => by rw [m1.cap]; exact hfit q (Or.inr hq))
      refine ⟨o1 ++ o2, e2, ?_⟩
      unfold evsItems
      exact m1.append m2

theorem emit_members : ∀ {ms : List (List Byte × Json)} {t : List Byte}, MoreMembers P Q ms t →
    ∀ (p : List Bool) (e : EReader) (b k : List Byte), At e (true :: p) → Ends e.r.last → e.r.err = .ok →
      e.r.rest = t ++ (b ++ closing true :: k) → Ws b → (∀ q ∈ nestingsMembers (true :: p) ms, (compress q).length ≤ e.cap) →
      ∃ out e', Emitted (true :: p) e (evsMembers ms) (b ++ closing true :: k) out e'
  | _, _, .nil => by
      intro p e b k h hl he hr hb _
      refine ⟨[], e, .nil, ?_, h, rfl, hr, hl, he⟩
      unfold evsMembers
      exact .nil
  | _, _, .cons (a := a) (b := c) (m := (name, j)) (u := u) (ms := ms) (t := t) ha hc hm ht => by
      have ihm := emit_member hm
      have iht := emit_members ht
      intro p e b k h hl he hr hb hfit
      simp only [nestingsMembers, List.mem_append] at hfit
      obtain ⟨o1, e1, m1⟩ := ihm p e .comma (a ++ 0x2C :: c) (t ++ (b ++ closing true :: k)) h
        (.comma nofun hl ha hc) (Or.inr rfl) (by rw [hr]; simp [chr]) (stop_members ht true hb) he
        (fun q hq => hfit q (Or.inl hq))
      obtain ⟨o2, e2, m2⟩ := iht p e1 b k m1.at' m1.ends m1.err m1.rest hb (fun q hq => by rw [m1.cap]; exact hfit q (Or.inr hq))
      refine ⟨o1 ++ o2, e2, ?_⟩
      unfold evsMembers
      exact m1.append m2

end

end Tm.Json
