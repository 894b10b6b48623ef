import Verif.Json.RootLemmas
import Verif.Json.SoundLemmas

/-! # What is read token by token is a row of values -/

namespace Tm.Json

open Tm Spec

/-! ### Rows -/

theorem Row.ws {js : List Json} {w a : List Byte} (h : Row js w) (ha : Ws a) : Row js (w ++ a) := by
  induction h with
  | nil h => exact .nil (by intro b hb; rcases List.mem_append.mp hb with hb | hb; exacts [h b hb, ha b hb])
  | cons h hv _ ih =>
    rw [List.append_assoc, List.append_assoc]
    exact .cons h hv ih

theorem Row.snoc {js : List Json} {w v : List Byte} {j : Json} (h : Row js w) (hv : Value Any Any j v) : Row (js ++ [j]) (w ++ v) := by
  induction h with
  | @nil a h =>
    have := Row.cons (js := []) (t := []) h hv (.nil (by intro b hb; cases hb))
    simpa using this
  | cons h hv' _ ih =>
    rw [List.append_assoc, List.append_assoc]
    exact .cons h hv' ih

/-- How many of the values are no strings. -/
def others (js : List Json) : Nat := (js.filter fun j => !IsStr j).length

theorem others_snoc (js : List Json) (j : Json) : others (js ++ [j]) = others js + if IsStr j then 0 else 1 := by
  unfold others
  rw [List.filter_append, List.length_append]
  cases h : IsStr j <;> simp [h]

/-! ### Where the reader is -/

/-- After these characters of a container, which begin with its bracket, an element is complete. -/
def Complete (o : Bool) (w : List Byte) : Prop := ∀ u, ItemsEnd o u → ∃ j, Value Any Any j (w ++ u)

/-- After these characters of a container a value can follow. -/
def Waiting (o : Bool) (w : List Byte) : Prop := ∀ j v, Value Any Any j v → Complete o (w ++ v)

/-- The characters of the innermost container. -/
inductive Frame : Bool → Tok → List Byte → Prop
  | start (o : Bool) : Frame o (startTok o) [opening o]
  | done {o l w} : Ends l → Complete o w → Frame o l w
  | name {w} : (∀ a b, Ws a → Ws b → Waiting true (w ++ (a ++ 0x3A :: b))) → Frame true .propName w

/-- The characters before the innermost container. -/
inductive Below : List Bool → List Byte → Prop
  | root {js w} : Row js w → others js = 0 → Below [] w
  | cons {o p pre w} : Below p pre → Waiting o w → Below (o :: p) (pre ++ w)

/-- The characters that were read, when the brackets `p` are open and `l` was the last token. -/
inductive Spot : List Bool → Tok → Bool → List Byte → Prop
  | outside {js w l b} : Row js w → others js ≤ 1 → (b = false → others js = 0) → Spot [] l b w
  | inside {o p l pre w} : Below p pre → Frame o l w → Spot (o :: p) l true (pre ++ w)

theorem items_nil (o : Bool) {b : List Byte} (hb : Ws b) : ItemsEnd o (b ++ [closing o]) := by
  refine ⟨[], b, hb, rfl, ?_⟩
  cases o
  · exact ⟨[], MoreValues.nil⟩
  · exact ⟨[], MoreMembers.nil⟩

/-- A value may stand here. -/
theorem frame_waiting {o : Bool} {l0 l : Tok} {w sep : List Byte} (hf : Frame o l0 w) (hs : Sep (ctxOf o) l0 l sep)
    (hl : CanValue (ctxOf o) l) : Waiting o (w ++ sep) := by
  cases o with
  | false =>
    have hl : l = .arrStart ∨ l = .comma := hl
    generalize ho : false = o at hf
    cases hf with
    | start o =>
      subst ho
      have hst : startTok false = .arrStart := rfl
      rw [hst] at hs
      cases hs with
      | ws ha =>
        intro j v hv u hu
        obtain ⟨j', hj⟩ := inside_value (isObj := false) (t := sep ++ (v ++ u)) (Or.inr ⟨sep, v, u, ha, ⟨j, hv⟩, hu, rfl⟩)
        exact ⟨j', by simpa using hj⟩
      | comma _ he _ _ => rcases he with h | h | h <;> cases h
    | @done o l0 w he hd =>
      subst ho
      cases hs with
      | ws ha => rcases hl with rfl | rfl <;> rcases he with h | h | h <;> cases h
      | @comma _ a b _ _ ha hb =>
        intro j v hv u hu
        obtain ⟨j', hj⟩ := hd _ (ItemsEnd.cons ha hb (x := v) (isObj := false) ⟨j, hv⟩ hu)
        exact ⟨j', by simpa using hj⟩
      | colon hc => cases hc
    | name => cases ho
  | true =>
    have hl : l = .colon := hl
    subst hl
    generalize ho : true = o at hf
    cases hf with
    | start o =>
      subst ho
      have hst : startTok true = .objStart := rfl
      rw [hst] at hs
      cases hs
    | done he hd =>
      cases hs with
      | ws ha => rcases he with h | h | h <;> cases h
      | colon => rcases he with h | h | h <;> cases h
    | name h =>
      cases hs with
      | @colon a b _ ha hb => exact h a b ha hb

/-- The closing bracket may stand here. -/
theorem frame_close {o : Bool} {l0 l : Tok} {w sep : List Byte} (hf : Frame o l0 w) (hs : Sep (ctxOf o) l0 l sep) (hl : CanEnd l) :
    ∃ j, Value Any Any j (w ++ (sep ++ [closing o])) := by
  have hws : Ws sep ∧ l = l0 := by
    cases hs with
    | ws ha => exact ⟨ha, rfl⟩
    | comma => exact absurd rfl hl.1
    | colon => exact absurd rfl hl.2.2
  obtain ⟨ha, rfl⟩ := hws
  cases hf with
  | start o =>
    obtain ⟨j, hj⟩ := inside_value (isObj := o) (Or.inl ⟨sep, ha, rfl⟩)
    exact ⟨j, hj⟩
  | done _ hd => exact hd _ (items_nil o ha)
  | name => exact absurd rfl hl.2.1

/-- The name of a member may stand here. -/
theorem frame_name {l0 l : Tok} {w sep raw text : List Byte} (hf : Frame true l0 w) (hs : Sep .object l0 l sep)
    (hl : l = .objStart ∨ l = .comma) (hb : Body raw text) : Frame true .propName (w ++ (sep ++ quoted raw)) := by
  refine .name fun a b ha hb' j v hv u hu => ?_
  have hm : Elem true (quoted raw ++ (a ++ (0x3A :: (b ++ v)))) := ⟨_, Member.mk hb trivial ha hb' hv⟩
  generalize ho : true = o at hf
  cases hf with
  | start o =>
    subst ho
    have hst : startTok true = .objStart := rfl
    rw [hst] at hs
    cases hs with
    | ws hwa =>
      obtain ⟨j', hj⟩ := inside_value (isObj := true) (Or.inr ⟨sep, _, u, hwa, hm, hu, rfl⟩)
      exact ⟨j', by simpa using hj⟩
    | comma _ he _ _ => rcases he with h | h | h <;> cases h
  | done he hd =>
    subst ho
    cases hs with
    | ws _ => rcases hl with rfl | rfl <;> rcases he with h | h | h <;> cases h
    | comma _ _ hwa hwb =>
      obtain ⟨j', hj⟩ := hd _ (ItemsEnd.cons hwa hwb hm hu)
      exact ⟨j', by simpa using hj⟩
    | colon => rcases hl with h | h <;> cases h
  | name =>
    cases hs with
    | ws _ => rcases hl with h | h <;> cases h
    | comma _ he _ _ => rcases he with h | h | h <;> cases h
    | colon => rcases hl with h | h <;> cases h

/-- A value is complete, within the brackets `p`. -/
theorem below_value {p : List Bool} {pre v : List Byte} {j : Json} {l : Tok} (h : Below p pre) (hv : Value Any Any j v) (hl : Ends l) :
    Spot p l true (pre ++ v) := by
  cases h with
  | @root js _ hr ho =>
    refine .outside (hr.snoc hv) ?_ nofun
    rw [others_snoc, ho]
    split <;> omega
  | @cons o p pre w hb hw =>
    rw [List.append_assoc]
    exact .inside hb (.done hl (hw j v hv))

theorem lexed_value {ctx : Ctx} {l : Tok} {r' : Reader} {body : List Byte} (h : Lexed ctx l r' .value body) :
    ∃ j, Value Any Any j body ∧ (IsStr j = true ↔ r'.vtype = .string) := by
  generalize ht : Tok.value = t at h
  cases h with
  | str _ hb hv _ => exact ⟨_, Value.str hb trivial, by simp [IsStr, hv]⟩
  | @scal j v t _ hs hv _ _ _ =>
    refine ⟨j, scal_value hs, ?_⟩
    rw [hv]
    have hn := scal_notString hs
    refine ⟨fun h => ?_, fun h => absurd h hn⟩
    cases hs <;> cases h
  | _ => cases ht

/-- The white space at the root. -/
theorem sep_root {l l' : Tok} {sep : List Byte} (h : Sep .null l l' sep) : Ws sep := by
  cases h with
  | ws h => exact h
  | comma h => exact absurd rfl h
  | colon h => cases h

theorem Moves.inv {p p' : List Bool} {t : Tok} (h : Moves p t p') :
    (∀ o, t = startTok o → p' = o :: p) ∧ (∀ o, t = endTok o → p = o :: p') ∧ (t = .value ∨ t = .propName → p' = p) := by
  cases h with
  | start o =>
    refine ⟨fun o' h => ?_, fun o' h => ?_, fun h => ?_⟩
    · cases o <;> cases o' <;> first | rfl | cases h
    · cases o <;> cases o' <;> cases h
    · cases o <;> rcases h with h | h <;> cases h
  | stop o =>
    refine ⟨fun o' h => ?_, fun o' h => ?_, fun h => ?_⟩
    · cases o <;> cases o' <;> cases h
    · cases o <;> cases o' <;> first | rfl | cases h
    · cases o <;> rcases h with h | h <;> cases h
  | other h1 h2 h3 h4 =>
    refine ⟨fun o' h => ?_, fun o' h => ?_, fun _ => rfl⟩
    · cases o'
      · exact absurd h h2
      · exact absurd h h1
    · cases o'
      · exact absurd h h4
      · exact absurd h h3

/-- A token that begins a value, at the root or in a container where a value can follow. -/
theorem spot_value {p p' : List Bool} {l tok : Tok} {ctx : Ctx} {pre body : List Byte} {r' : Reader} (h : Below p pre) (hx : Lexed ctx l r' tok body)
    (hv : IsValueTok tok) (hm : Moves p tok p') (hr : r'.root = true) : Spot p' tok r'.root (pre ++ body) := by
  rw [hr]
  have start : ∀ o, tok = startTok o → body = [opening o] → Spot p' tok true (pre ++ body) := by
    intro o ht hb
    rw [hm.inv.1 o ht, hb, ht]
    exact .inside h (.start o)
  have value : tok = .value → Spot p' tok true (pre ++ body) := by
    intro ht
    subst ht
    obtain ⟨j, hj, _⟩ := lexed_value hx
    rw [hm.inv.2.2 (Or.inl rfl)]
    exact below_value h hj (Or.inr (Or.inr rfl))
  cases hx with
  | objStart => exact start true rfl rfl
  | arrStart => exact start false rfl rfl
  | str => exact value rfl
  | scal => exact value rfl
  | _ => rcases hv with h | h | h <;> cases h

/-- One more token. -/
theorem spot_step {p p' : List Bool} {r r' : Reader} {w sep body : List Byte} {l tok : Tok} (h : Spot p r.last r.root w)
    (hs : Sep (ctxAt p) r.last l sep) (hx : Lexed (ctxAt p) l r' tok body) (ht : tok ≠ .eof) (hroot : Rooted (ctxAt p) r.root (tok, r'))
    (hm : Moves p tok p') : Spot p' tok r'.root (w ++ (sep ++ body)) := by
  generalize hl0 : r.last = l0 at h hs
  generalize hb0 : r.root = b0 at h hroot
  cases h with
  | @outside js _ _ _ hrow h1 h2 =>
    have hrow' := hrow.ws (sep_root hs)
    rcases lexed_cases hx with ⟨hv, _⟩ | ⟨h, _⟩ | ⟨h, _⟩ | ⟨h, _⟩ | ⟨_, h⟩
    · rw [← List.append_assoc]
      by_cases hstr : tok = .value ∧ r'.vtype = .string
      · obtain ⟨rfl, hty⟩ := hstr
        obtain ⟨j, hj, hiff⟩ := lexed_value hx
        rw [hm.inv.2.2 (Or.inl rfl)]
        have hos : others (js ++ [j]) = others js := by rw [others_snoc, if_pos (hiff.mpr hty)]; rfl
        refine .outside (hrow'.snoc hj) (hos ▸ h1) fun hf => ?_
        rw [hos]
        refine h2 ?_
        cases hb : b0 with
        | false => rfl
        | true => rw [hroot.keep hb] at hf; cases hf
      · have hb : b0 = false := by
          cases hb : b0 with
          | false => rfl
          | true => exact absurd (hroot.again rfl hb hv) hstr
        have hr : r'.root = true := (hroot.first rfl hv).resolve_right hstr
        exact spot_value (.root hrow' (h2 hb)) hx hv hm hr
    · cases h
    · cases h
    · cases h
    · exact absurd h ht
  | @inside o p _ pre w hbel hfr =>
    have hr : r'.root = true := hroot.keep rfl
    have hs : Sep (ctxOf o) l0 l sep := hs
    have hx : Lexed (ctxOf o) l r' tok body := hx
    have hend : tok = endTok o → body = [closing o] → CanEnd l → Spot p' tok r'.root (pre ++ w ++ (sep ++ body)) := by
      intro h1 h2 h3
      obtain ⟨j, hj⟩ := frame_close hfr hs h3
      have hp := hm.inv.2.1 o h1
      injection hp with _ hp
      subst hp
      rw [hr, h2, List.append_assoc]
      refine below_value hbel hj ?_
      rw [h1]
      cases o
      · exact Or.inr (Or.inl rfl)
      · exact Or.inl rfl
    rcases lexed_cases hx with ⟨hv, hc⟩ | ⟨hc, h1, h2, h3⟩ | ⟨hc, h1, h2, h3⟩ | ⟨hc, rfl, hl⟩ | ⟨hc, _⟩
    · have := spot_value (.cons hbel (frame_waiting hfr hs hc)) hx hv hm hr
      simpa using this
    · have ho : o = true := ctxOf_inj (o' := true) hc
      subst ho
      exact hend h1 h2 h3
    · have ho : o = false := ctxOf_inj (o' := false) hc
      subst ho
      exact hend h1 h2 h3
    · have ho : o = true := ctxOf_inj (o' := true) hc
      subst ho
      rw [hm.inv.2.2 (Or.inr rfl), hr, List.append_assoc]
      generalize htk : Tok.propName = tk at hx
      cases hx with
      | name _ _ hb _ => exact .inside hbel (frame_name hfr hs hl hb)
      | _ => cases htk
    · cases o <;> cases hc

/-- The characters that were read are in step with the text. -/
structure Reading (s : List Byte) (p : List Bool) (e : EReader) : Prop where
  at' : At e p
  read : ∃ w, Spot p e.r.last e.r.root w ∧ s = w ++ e.r.rest

theorem reading_step {s : List Byte} {p : List Bool} {e : EReader} {x : Tok × EReader} (h : Reading s p e)
    (hn : nextEvent strict e = .ok x) (h2 : x.1 ≠ .error) :
    (x.1 ≠ .eof → ∃ p', Reading s p' x.2) ∧ (x.1 = .eof → ∃ js, Row js s ∧ others js ≤ 1) := by
  obtain ⟨w, hw, hsw⟩ := h.read
  unfold nextEvent at hn
  rw [h.at'.top] at hn
  have hres := nextToken_res (ctxAt p) e.r
  have hrt := nextToken_root strict (ctxAt p) e.r
  generalize hy : nextToken strict (ctxAt p) e.r = y at hres hrt hn
  cases hres with
  | oob _ => cases hn
  | error hf =>
    exfalso
    rw [ok_bind, track_other _ (by simp) (by simp) (by simp) (by simp)] at hn
    injection hn with hn
    exact h2 (by rw [← hn])
  | @tok tok r' l sep body hs hx hr he hlast =>
    have hrt := hrt _ rfl
    rw [ok_bind] at hn
    obtain ⟨z, hz, _, hc⟩ := track_moves h.at' (tok, r')
    rw [hz] at hn
    injection hn with hn
    subst hn
    rcases hc with ⟨hc, _⟩ | ⟨hc1, hc2, p', hat, hm⟩
    · exact absurd hc h2
    · dsimp only at hc1 hc2 hm
      constructor
      · intro hne
        refine ⟨p', hat, w ++ (sep ++ body), ?_, ?_⟩
        · rw [hc2, hlast]
          exact spot_step hw hs hx (hc1 ▸ hne) hrt hm
        · rw [hc2, hsw, hr]
          simp
      · intro heof
        rw [hc1] at heof
        subst heof
        rcases lexed_cases hx with ⟨h | h | h, _⟩ | ⟨_, h, _⟩ | ⟨_, h, _⟩ | ⟨_, h, _⟩ | ⟨hctx, _⟩
        all_goals first | (cases h; done) | skip
        have hp : p = [] := by
          cases p with
          | nil => rfl
          | cons o p => cases o <;> cases hctx
        subst hp
        generalize e.r.last = l0 at hw hs
        generalize e.r.root = b0 at hw
        generalize htk : Tok.eof = tk at hx
        cases hx with
        | eof _ hnil =>
          cases hw with
          | outside hrow h1 _ =>
            refine ⟨_, ?_, h1⟩
            rw [hsw, hr, hnil]
            simpa using hrow.ws (sep_root hs)
        | _ => cases htk

theorem run_reading {s : List Byte} {e e' : EReader} {xs : List (Tok × Reader)} (hr : Run strict e xs e') :
    ∀ {p : List Bool}, Reading s p e → ∃ p', Reading s p' e' := by
  induction hr with
  | nil => exact fun h => ⟨_, h⟩
  | cons hn h1 h2 _ ih =>
    intro p h
    obtain ⟨p', hp⟩ := (reading_step h hn h2).1 h1
    exact ih hp

theorem reading_start (s : List Byte) (cap : Nat) : Reading s [] (makeEvents s cap) :=
  ⟨⟨rfl, Nat.zero_le _⟩, [], .outside (js := []) (.nil (by intro b hb; cases hb)) (by simp [others]) (fun _ => rfl), rfl⟩

end Tm.Json
