import Verif.Xml.MoveLemmas
import Verif.Xml.ReadSpec

/-!
The tokens that were delivered so far, and the state of the reader.
-/

namespace Tm.Xml

theorem Misc.append {a b : List Kind} (ha : Misc a) (hb : Misc b) : Misc (a ++ b) := by
  intro k hk
  rcases List.mem_append.mp hk with h | h
  · exact ha k h
  · exact hb k h

theorem Inner.append {a b : List Kind} (ha : Inner a) (hb : Inner b) : Inner (a ++ b) := by
  induction ha with
  | nil => exact hb
  | single k ks hk _ ih => exact .single k _ hk ih
  | element n inner ks hi _ _ ih =>
    have := Inner.element n inner (ks ++ b) hi ih
    simpa using this

theorem attributes_snoc (n : Nat) : attributes n ++ [.attrName, .attrValue] = attributes (n + 1) := by
  induction n with
  | zero => rfl
  | succ n ih =>
    show .attrName :: .attrValue :: (attributes n ++ _) = _
    rw [ih]; rfl

/-- The tokens up to some place inside of `d` elements. -/
inductive Nested : Nat → List Kind → Prop
  | root (m : List Kind) (n : Nat) (inner : List Kind) : Misc m → Inner inner →
    Nested 1 (m ++ (.tagOpen :: (attributes n ++ inner)))
  | more (d : Nat) (ks : List Kind) (n : Nat) (inner : List Kind) : Nested d ks → Inner inner →
    Nested (d + 1) (ks ++ (.tagOpen :: (attributes n ++ inner)))

theorem Nested.append {d : Nat} {ks c : List Kind} (h : Nested d ks) (hc : Inner c) : Nested d (ks ++ c) := by
  cases h with
  | root m n inner hm hi =>
    have := Nested.root m n _ hm (hi.append hc)
    simpa using this
  | more d ks n inner hk hi =>
    have := Nested.more d ks n _ hk (hi.append hc)
    simpa using this

theorem Nested.pos {d : Nat} {ks : List Kind} (h : Nested d ks) : 0 < d := by cases h <;> omega

/-- Where an opening tag may be. -/
def Base (d : Nat) (ks : List Kind) : Prop := if d = 0 then Misc ks else Nested d ks

theorem Base.open_ {d : Nat} {ks : List Kind} (h : Base d ks) (n : Nat) :
    Nested (d + 1) (ks ++ (.tagOpen :: attributes n)) := by
  unfold Base at h
  split at h
  · rename_i hd
    subst hd
    have := Nested.root ks n [] h .nil
    simpa using this
  · have := Nested.more d ks n [] h .nil
    simpa using this

/-- The tokens of a document without its end. -/
def Done (ks : List Kind) : Prop :=
  ∃ m n inner m', Misc m ∧ Inner inner ∧ Misc m' ∧ ks = m ++ (.tagOpen :: (attributes n ++ inner ++ [.tagClose])) ++ m'

theorem Nested.close {d : Nat} {ks : List Kind} (h : Nested (d + 1) ks) :
    (d = 0 ∧ Done (ks ++ [.tagClose])) ∨ (0 < d ∧ Nested d (ks ++ [.tagClose])) := by
  cases h with
  | root m n inner hm hi =>
    refine .inl ⟨rfl, m, n, inner, [], hm, hi, fun k hk => (nomatch hk), by simp⟩
  | more d ks n inner hk hi =>
    refine .inr ⟨hk.pos, ?_⟩
    have := hk.append (Inner.element n inner [] hi .nil)
    simpa using this

/-- The state of the reader after the tokens `ks`, none of which is an error. -/
def Shape (ks : List Kind) (r : Reader) : Prop :=
  match r.ctx with
  | .none => ks = [] ∧ r.depth = 0 ∧ r.rootFound = false
  | .content => (r.depth = 0 ∧ r.rootFound = false ∧ (Misc ks ∨ Closing r.tz.rest)) ∨ Nested r.depth ks
  | .insideTag => ∃ ks' n, Base r.depth ks' ∧ ks = ks' ++ (.tagOpen :: attributes n)
  | .attrName => ∃ ks' n, Base r.depth ks' ∧ ks = ks' ++ (.tagOpen :: attributes n) ++ [.attrName]
  | .postRoot => r.depth = 0 ∧ Done ks
  | .eof => Document ks
  | .error => True

theorem Shape.start {ks : List Kind} {r : Reader} (h : Shape ks r) (hc : r.ctx = .content ∨ r.ctx = .none) :
    (r.depth = 0 ∧ r.rootFound = false ∧ (Misc ks ∨ Closing r.tz.rest)) ∨ Nested r.depth ks := by
  unfold Shape at h
  rcases hc with hc | hc <;> rw [hc] at h
  · exact h
  · exact .inl ⟨h.2.1, h.2.2, .inl (by rw [h.1]; intro k hk; cases hk)⟩

/-- An opening tag may follow. -/
theorem Shape.base {ks : List Kind} {r : Reader} (h : Shape ks r) (hc : r.ctx = .content ∨ r.ctx = .none)
    (hn : r.depth = 0 → ¬ Closing r.tz.rest) : Base r.depth ks := by
  unfold Base
  rcases h.start hc with ⟨h1, h2, h3⟩ | h1
  · rw [if_pos h1]; exact h3.resolve_right (hn h1)
  · rw [if_neg (by have := h1.pos; omega)]; exact h1

theorem Shape.step {ks : List Kind} {r r' : Reader} (h : Shape ks r) (hm : Move r r') (hk : r'.current.kind ≠ .error) :
    Shape (ks ++ [r'.current.kind]) r' := by
  cases hm with
  | fail f c => unfold Shape; rw [c]; trivial
  | eof f c k hr d o =>
    rcases hr with hr | ⟨hr, h1, h2⟩
    · unfold Shape at h
      rw [hr] at h
      obtain ⟨_, m, n, inner, m', a1, a2, a3, rfl⟩ := h
      unfold Shape
      rw [c, k]
      exact ⟨m, n, inner, m', a1, a2, a3, rfl⟩
    · rcases h.start hr with ⟨_, h3, _⟩ | h3
      · rw [h3] at h1; cases h1
      · have := h3.pos; omega
  | stuck f c k hr d d' o s =>
    unfold Shape
    rw [c]
    rcases h.start hr with ⟨_, h3, _⟩ | h3
    · exact .inl ⟨d', by rw [o, h3], .inr s⟩
    · have := h3.pos; omega
  | misc f c k hr d o s l =>
    unfold Shape
    rw [c]
    dsimp only
    rw [d]
    rcases h.start hr with ⟨h1, h2, h3⟩ | h3
    · refine .inl ⟨h1, by rw [o, h2], .inl ((h3.resolve_right (s h1)).append ?_)⟩
      intro k' hk'
      rw [List.mem_singleton.mp hk']; exact k
    · refine .inr (h3.append (.single _ _ ?_ .nil))
      rcases k with k | k <;> simp [k]
  | text f c k hr p d o l =>
    unfold Shape
    rw [c]
    dsimp only
    rw [d]
    rcases h.start hr with ⟨h1, h2, h3⟩ | h3
    · omega
    · refine .inr (h3.append (.single _ _ ?_ .nil))
      rcases k with k | k <;> simp [k]
  | opened f c k hr d o s l =>
    unfold Shape
    rw [c, k]
    dsimp only
    rw [d]
    exact .inr (by simpa [attributes] using (h.base hr s).open_ 0)
  | tag f c k hr d o s l =>
    unfold Shape
    rw [c, k]
    dsimp only
    rw [d]
    exact ⟨ks, 0, h.base hr s, rfl⟩
  | closed f c k hr d o l =>
    rcases h.start hr with ⟨h1, h2, h3⟩ | h3
    · omega
    · rw [← d] at h3
      unfold Shape
      rw [c, k]
      rcases h3.close with ⟨h4, h5⟩ | ⟨h4, h5⟩
      · rw [if_pos h4]; exact ⟨h4, h5⟩
      · rw [if_neg (by omega)]; exact .inr h5
  | empty f c k hr d o l =>
    unfold Shape at h
    rw [hr] at h
    obtain ⟨ks', n, hb, rfl⟩ := h
    unfold Shape
    rw [c, k]
    rcases (hb.open_ n).close with ⟨h4, h5⟩ | ⟨h4, h5⟩
    · rw [if_pos h4]; exact ⟨by rw [d, h4], h5⟩
    · rw [if_neg (by omega)]; exact .inr (by rw [d]; exact h5)
  | name f c k hr d o l =>
    unfold Shape at h
    rw [hr] at h
    obtain ⟨ks', n, hb, rfl⟩ := h
    unfold Shape
    rw [c, k]
    exact ⟨ks', n, by rw [d]; exact hb, rfl⟩
  | last f c k hr d o l =>
    unfold Shape at h
    rw [hr] at h
    obtain ⟨ks', n, hb, rfl⟩ := h
    unfold Shape
    rw [c, k]
    refine .inr ?_
    rw [d]
    have := hb.open_ (n + 1)
    rw [← attributes_snoc] at this
    simpa using this
  | value f c k hr d o l =>
    unfold Shape at h
    rw [hr] at h
    obtain ⟨ks', n, hb, rfl⟩ := h
    unfold Shape
    rw [c, k]
    refine ⟨ks', n + 1, by rw [d]; exact hb, ?_⟩
    rw [← attributes_snoc]
    simp
  | post f c k hr d o l =>
    unfold Shape at h
    rw [hr] at h
    obtain ⟨h0, m, n, inner, m', a1, a2, a3, rfl⟩ := h
    unfold Shape
    rw [c]
    refine ⟨by rw [d]; exact h0, m, n, inner, m' ++ [r'.current.kind], a1, a2, a3.append ?_, by simp⟩
    intro k' hk'
    rw [List.mem_singleton.mp hk']; exact k
  | again f c k hr d o => exact absurd k hk

theorem prolog_frame {r r' : Reader} {b : Bool} {p : Prolog} (h : readProlog r = .ok (b, p, r')) : r' = { r with tz := r'.tz } := by
  have scan : ∀ (out : Prolog) (t : Tz), (do
      match ← doctypeScan t (t.rest.length + 1) t with
      | (b, none) => .ok (b, out, r)
      | (b, some (t, skipped)) => .ok (b, { out with skippedDoctype := skipped }, { r with tz := t }) : C (Bool × Prolog × Reader))
        = .ok (b, p, r') → r' = { r with tz := r'.tz } := by
    intro out t h
    cases hd : doctypeScan t (t.rest.length + 1) t with
    | error e => rw [hd] at h; cases h
    | ok x =>
      rw [hd] at h
      obtain ⟨b', o⟩ := x
      cases o with
      | none => cases h; rfl
      | some y => cases h; rfl
  unfold readProlog at h
  dsimp only at h
  split at h
  · cases ha : advance r.tz 2 with
    | error e => rw [ha] at h; cases h
    | ok t =>
      rw [ha] at h
      simp only [ok_bind] at h
      cases hb : prologBody t with
      | error e => rw [hb] at h; cases h
      | ok o =>
        rw [hb] at h
        simp only [ok_bind] at h
        cases o with
        | none => cases h; rfl
        | some x => exact scan _ _ h
  · exact scan _ _ h

theorem Started.frame {doc : List Byte} {flags : Flags} {r : Reader} (h : Started doc flags r) :
    r = { makeReader doc flags with tz := r.tz } := by
  cases h with
  | fresh => rfl
  | prolog p r h => exact prolog_frame h

theorem Started.shape {doc : List Byte} {flags : Flags} {r : Reader} (h : Started doc flags r) : Shape [] r := by
  rw [h.frame]
  exact ⟨rfl, rfl, rfl⟩

theorem Reads.shape {r r' : Reader} {ts : List Token} (h : Reads r ts r') (hr : Shape [] r)
    (he : ∀ t ∈ ts, t.kind ≠ .error) : Shape (ts.map Token.kind) r' := by
  induction h with
  | nil => exact hr
  | call ts r' r'' alloc _ hn ih =>
    rcases nextToken_move hn with ⟨h, _⟩ | ⟨_, _, _, hm⟩
    · cases h
    · rw [List.map_append]
      exact (ih fun t ht => he t (List.mem_append_left _ ht)).step hm (he _ (List.mem_append_right _ (List.mem_singleton.mpr rfl)))

/-- The number of elements that are open. -/
def Reader.opened (r : Reader) : Nat :=
  match r.ctx with
  | .insideTag | .attrName => r.depth + 1
  | _ => r.depth

/-- Counting, as long as no closing tag is left over and no error was delivered: the open elements are those whose closing tag was
not delivered, and every token takes something of the document. -/
structure Tally (n : Nat) (ks : List Kind) (r : Reader) : Prop where
  depth : r.ctx ≠ .error → r.opened + ks.count .tagClose = ks.count .tagOpen
  size : ks.length + r.tz.rest.length ≤ n + 1
  live : r.ctx ≠ .error → r.ctx ≠ .eof → ks.length + r.tz.rest.length ≤ n

theorem Tally.step {n : Nat} {ks : List Kind} {r r' : Reader} (h : Tally n ks r) (h1 : r.ctx ≠ .eof) (h2 : r.ctx ≠ .error)
    (hm : Move r r') (hk : r'.current.kind ≠ .error ∨ r'.ctx = .error)
    (hc : r'.current.kind = .tagClose → ks.count .tagClose < ks.count .tagOpen) :
    Tally n (ks ++ [r'.current.kind]) r' := by
  have hd := h.depth h2
  have hl := h.live h2 h1
  have hle : ∀ {r' : Reader}, Frame r r' → r'.tz.rest.length ≤ r.tz.rest.length := fun f => f.adv.le
  have go : r'.tz.rest.length < r.tz.rest.length →
      r'.opened + (ks ++ [r'.current.kind]).count .tagClose = (ks ++ [r'.current.kind]).count .tagOpen →
      Tally n (ks ++ [r'.current.kind]) r' := by
    intro l hcount
    refine ⟨fun _ => hcount, ?_, fun _ _ => ?_⟩ <;>
      (simp only [List.length_append, List.length_cons, List.length_nil]; omega)
  cases hm with
  | fail f c =>
    refine ⟨fun h => absurd c h, ?_, fun h => absurd c h⟩
    have := hle f
    simp only [List.length_append, List.length_cons, List.length_nil]; omega
  | eof f c k hr d o =>
    refine ⟨fun _ => ?_, ?_, fun _ h => absurd c h⟩
    · rw [k]
      simp only [List.count_append, List.count_cons, List.count_nil]
      unfold Reader.opened at hd ⊢
      rw [c]
      rcases hr with hr | ⟨hr | hr, _⟩ <;> (rw [hr] at hd; simpa [d] using hd)
    · have := hle f
      simp only [List.length_append, List.length_cons, List.length_nil]; omega
  | stuck f c k hr d d' o s =>
    exfalso
    have := hc k
    unfold Reader.opened at hd
    rcases hr with hr | hr <;> (rw [hr] at hd; dsimp only at hd; omega)
  | again f c k hr d o =>
    exfalso
    rcases hk with hk | hk
    · exact hk k
    · rw [c] at hk; cases hk
  | misc f c k hr d o s l =>
    refine go l ?_
    unfold Reader.opened at hd ⊢
    rw [c]
    rcases k with k | k <;> rcases hr with hr | hr <;> (rw [hr] at hd; simpa [d, k] using hd)
  | text f c k hr _ d o l =>
    refine go l ?_
    unfold Reader.opened at hd ⊢
    rw [c]
    rcases k with k | k <;> rcases hr with hr | hr <;> (rw [hr] at hd; simpa [d, k] using hd)
  | opened f c k hr d o s l =>
    refine go l ?_
    unfold Reader.opened at hd ⊢
    rw [c]
    rcases hr with hr | hr <;> (rw [hr] at hd; simp [d, k] at hd ⊢; omega)
  | tag f c k hr d o s l =>
    refine go l ?_
    unfold Reader.opened at hd ⊢
    rw [c]
    rcases hr with hr | hr <;> (rw [hr] at hd; simp [d, k] at hd ⊢; omega)
  | closed f c k hr d o l =>
    refine go l ?_
    have e : r'.opened = r'.depth := by
      unfold Reader.opened
      rw [c]
      by_cases h0 : r'.depth = 0 <;> simp [h0]
    rw [e]
    unfold Reader.opened at hd
    rcases hr with hr | hr <;> (rw [hr] at hd; simp [k] at hd ⊢; omega)
  | empty f c k hr d o l =>
    refine go l ?_
    have e : r'.opened = r'.depth := by
      unfold Reader.opened
      rw [c]
      by_cases h0 : r.depth = 0 <;> simp [h0]
    rw [e]
    unfold Reader.opened at hd
    rw [hr] at hd
    simp [k] at hd ⊢; omega
  | name f c k hr d o l =>
    refine go l ?_
    unfold Reader.opened at hd ⊢
    rw [c]
    rw [hr] at hd; simp [d, k] at hd ⊢; omega
  | last f c k hr d o l =>
    refine go l ?_
    unfold Reader.opened at hd ⊢
    rw [c]
    rw [hr] at hd; simp [d, k] at hd ⊢; omega
  | value f c k hr d o l =>
    refine go l ?_
    unfold Reader.opened at hd ⊢
    rw [c]
    rw [hr] at hd; simp [d, k] at hd ⊢; omega
  | post f c k hr d o l =>
    refine go l ?_
    unfold Reader.opened at hd ⊢
    rw [c]
    rcases k with k | k <;> (rw [hr] at hd; simpa [d, k] using hd)

end Tm.Xml
