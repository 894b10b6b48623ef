import Verif.Xml.TextLemmas

/-!
What is written does not depend on the size of the buffer, except that pieces that do not fit are dropped.
-/

namespace Tm.Xml

/-- The variables of the loop that do not belong to the output. -/
structure Core where
  cur : List Byte
  prev : List Byte
  last : Bool

def Unesc.core (u : Unesc) : Core := ⟨u.cur, u.prev, u.last⟩

def Unesc.put (u : Unesc) (k : Core) : Unesc := { u with cur := k.cur, prev := k.prev, last := k.last }

/-- A step computes one piece of output and the rest of the state without looking at the output. -/
def Blind (g : Unesc → C (Option Unesc)) : Prop :=
  ∀ k : Core, ∃ res : C (Option (Core × List Byte)), ∀ u : Unesc, u.core = k →
    g u = res.map (Option.map fun p => (emit u p.2).put p.1)

theorem Blind.none : Blind fun _ => .ok none := fun _ => ⟨.ok Option.none, fun _ _ => rfl⟩

theorem emit_put (u : Unesc) (bs : List Byte) (k : Core) : emit (u.put k) bs = (emit u bs).put k := by
  unfold emit Unesc.put; split <;> rfl

@[simp] theorem emit_cur (u : Unesc) (bs : List Byte) : (emit u bs).cur = u.cur := by unfold emit; split <;> rfl
@[simp] theorem emit_prev (u : Unesc) (bs : List Byte) : (emit u bs).prev = u.prev := by unfold emit; split <;> rfl
@[simp] theorem emit_last (u : Unesc) (bs : List Byte) : (emit u bs).last = u.last := by unfold emit; split <;> rfl
@[simp] theorem put_self (u : Unesc) : u.put u.core = u := rfl
@[simp] theorem put_put (u : Unesc) (k l : Core) : (u.put k).put l = u.put l := rfl
@[simp] theorem core_put (u : Unesc) (k : Core) : (u.put k).core = k := rfl
theorem emit_nil (u : Unesc) : emit u [] = u := by
  unfold emit; simp

theorem core_cur {u : Unesc} {k : Core} (h : u.core = k) : u.cur = k.cur := by rw [← h]; rfl
theorem core_prev {u : Unesc} {k : Core} (h : u.core = k) : u.prev = k.prev := by rw [← h]; rfl
theorem core_last {u : Unesc} {k : Core} (h : u.core = k) : u.last = k.last := by rw [← h]; rfl

/-- The piece that `newline` writes, and the state it leaves. -/
def newlineCore (after : List Byte) (k : Core) (cp : Nat) : C (Core × List Byte) :=
  if cp = 0x0D && !k.cur.isEmpty then
    match rd (k.cur ++ after) 1 with
    | .error e => .error e
    | .ok c => if c = 0x0A then .ok (k, []) else .ok ({ k with prev := k.cur }, [0x20])
  else .ok ({ k with prev := k.cur }, [0x20])

theorem next_emit (u : Unesc) (bs : List Byte) : next (emit u bs) = (emit u bs).put { u.core with prev := u.cur } := by
  unfold next Unesc.put Unesc.core; simp

theorem newline_core (after : List Byte) (u : Unesc) (cp : Nat) :
    newline after u cp = (newlineCore after u.core cp).map fun p => (emit u p.2).put p.1 := by
  unfold newline newlineCore
  show _ = Except.map _ (if cp = 13 && !u.cur.isEmpty then _ else _)
  split
  · show _ = Except.map _ (match rd (u.cur ++ after) 1 with | .error e => _ | .ok c => _)
    cases rd (u.cur ++ after) 1 with
    | error e => rfl
    | ok c =>
      dsimp only
      split
      · show Except.ok u = .ok ((emit u []).put u.core)
        rw [emit_nil]; rfl
      · show Except.ok (next (emit u [0x20])) = _
        rw [next_emit]; rfl
  · rw [next_emit]; rfl

/-- The piece that `place` writes, and the state it leaves. -/
def placeCore (f : Flags) (after : List Byte) (k : Core) (cp : Nat) (bytes : List Byte) : C (Core × List Byte) :=
  if f.reduce then
    if cp ≤ 0x20 then
      if k.last then .ok ({ k with prev := k.cur }, [])
      else if f.newlines || (cp != 0x0D && cp != 0x0D) then .ok ({ k with prev := k.cur, last := true }, [0x20])
      else .ok ({ k with prev := k.cur, last := true }, bytes)
    else .ok ({ k with prev := k.cur, last := false }, bytes)
  else if f.newlines && (cp = 0x0D || cp = 0x0A) then newlineCore after k cp
  else .ok ({ k with prev := k.cur }, bytes)

theorem next_emit_last (u : Unesc) (b : Bool) (bs : List Byte) :
    next (emit { u with last := b } bs) = (emit u bs).put { u.core with prev := u.cur, last := b } := by
  have : ({ u with last := b } : Unesc) = u.put { u.core with last := b } := rfl
  rw [this, emit_put]
  unfold next Unesc.put Unesc.core; simp

theorem place_core (f : Flags) (after : List Byte) (u : Unesc) (cp : Nat) (bytes : List Byte) :
    place f after u cp bytes = (placeCore f after u.core cp bytes).map fun p => (emit u p.2).put p.1 := by
  unfold place placeCore
  split
  · split
    · show (if u.last = true then _ else _) = Except.map _ (if u.last = true then _ else _)
      split
      · show Except.ok (next u) = .ok ((emit u []).put _)
        rw [emit_nil]; rfl
      · split
        · rw [next_emit_last]; rfl
        · rw [next_emit_last]; rfl
    · rw [next_emit_last]; rfl
  · split
    · exact newline_core after u cp
    · rw [next_emit]; rfl

theorem map_map_some {α : Type} (x : C α) (h : α → Unesc) :
    Except.map some (x.map h) = (x.map some).map (Option.map h) := by cases x <;> rfl

theorem plain_blind (f : Flags) (after : List Byte) (cp : Nat) : Blind fun u => plain f after u cp := by
  intro k
  unfold plain
  cases validXml cp with
  | true =>
    refine ⟨(placeCore f after k cp (k.prev.take (k.prev.length - k.cur.length))).map some, ?_⟩
    intro u hu
    simp only [if_true]
    rw [place_core, map_map_some, hu, core_prev hu, core_cur hu]
  | false => exact ⟨.ok none, fun u _ => by simp [Except.map]⟩

theorem charRef_blind (f : Flags) (after : List Byte) (base : Nat) (ds rest : List Byte) :
    Blind fun u => charRef f after u base ds rest := by
  intro k
  unfold charRef
  cases validXml (strtoul base ds) with
  | true =>
    refine ⟨(placeCore f after { k with cur := rest } (strtoul base ds) (encodeCp (strtoul base ds))).map some, ?_⟩
    intro u hu
    simp only [if_true]
    have e : ({ u with cur := rest } : Unesc) = u.put { k with cur := rest } := by
      unfold Unesc.put; rw [← hu]; rfl
    rw [e, place_core]
    simp only [core_put]
    cases placeCore f after { k with cur := rest } (strtoul base ds) (encodeCp (strtoul base ds)) with
    | error e => rfl
    | ok p =>
      show Except.ok (some ((emit (u.put _) p.2).put p.1)) = Except.ok (some ((emit u p.2).put p.1))
      rw [emit_put, put_put]
  | false => exact ⟨.ok none, fun u _ => by simp [Except.map]⟩

theorem Blind.const {c : Prop} [Decidable c] {g h : Unesc → C (Option Unesc)} (hg : Blind g) (hh : Blind h) :
    Blind fun u => if c then g u else h u := by
  by_cases hc : c
  · simp only [hc, if_true]; exact hg
  · simp only [hc, if_false]; exact hh

theorem numeric_blind (f : Flags) (after c : List Byte) : Blind fun u => numeric f after u c := by
  unfold numeric
  refine Blind.const Blind.none ?_
  refine Blind.const Blind.none ?_
  refine Blind.const ?_ ?_
  · exact Blind.const Blind.none (Blind.const (charRef_blind _ _ _ _ _) Blind.none)
  · exact Blind.const Blind.none (Blind.const (charRef_blind _ _ _ _ _) Blind.none)

theorem named_blind (c : Byte) (len : Nat) : Blind fun u => named u c len := by
  intro k
  refine ⟨.ok (some ({ k with cur := k.cur.drop len, prev := k.cur.drop len }, [c])), ?_⟩
  intro u hu
  unfold named
  show Except.ok _ = Except.ok _
  simp only [Option.map_some]
  congr 2
  unfold next Unesc.put
  simp only [← core_cur hu, ← core_last hu, emit_last]

theorem emit_blind (bs : List Byte) : Blind fun u => .ok (some (next (emit u bs))) := by
  intro k
  refine ⟨.ok (some ({ k with prev := k.cur }, bs)), ?_⟩
  intro u hu
  show Except.ok _ = Except.ok _
  simp only [Option.map_some, next_emit, hu, core_cur hu]

theorem ampersand_blind (f : Flags) (after : List Byte) : Blind fun u => ampersand f after u := by
  intro k
  have key : Blind fun u => if k.cur.isEmpty then .ok none
      else if k.cur.head? = some 0x23 then numeric f after u k.cur.tail
      else if [0x6C, 0x74, 0x3B].isPrefixOf k.cur then named u 0x3C 3
      else if [0x61, 0x6D, 0x70, 0x3B].isPrefixOf k.cur then named u 0x26 4
      else if [0x71, 0x75, 0x6F, 0x74, 0x3B].isPrefixOf k.cur then named u 0x22 5
      else if [0x61, 0x70, 0x6F, 0x73, 0x3B].isPrefixOf k.cur then named u 0x27 5
      else if [0x67, 0x74, 0x3B].isPrefixOf k.cur then named u 0x3E 3
      else if k.cur.contains 0x3B then .ok (some (next (emit u [0x26])))
      else .ok none :=
    Blind.const Blind.none <| Blind.const (numeric_blind _ _ _) <| Blind.const (named_blind _ _) <|
      Blind.const (named_blind _ _) <| Blind.const (named_blind _ _) <| Blind.const (named_blind _ _) <|
      Blind.const (named_blind _ _) <| Blind.const (emit_blind _) Blind.none
  obtain ⟨res, h⟩ := key k
  refine ⟨res, fun u hu => ?_⟩
  rw [← h u hu]
  unfold ampersand
  simp only [core_cur hu]

theorem unescStep_blind (f : Flags) (after : List Byte) (cp : Nat) : Blind fun u => unescStep f after u cp := by
  intro k
  have key : Blind fun u => if cp = 0 then .ok none
      else if cp = 0x26 then ampersand f after u
      else if cp = 0x3C then
        if !f.comment then .ok none else .ok (some (next (emit u [0x3C])))
      else if cp = 0x5D then
        if !f.comment && [0x5D, 0x3E].isPrefixOf k.cur then .ok none else .ok (some (next (emit u [0x5D])))
      else plain f after u cp :=
    Blind.const Blind.none <| Blind.const (ampersand_blind _ _) <|
      Blind.const (Blind.const Blind.none (emit_blind _)) <|
      Blind.const (Blind.const Blind.none (emit_blind _)) (plain_blind _ _ _)
  obtain ⟨res, h⟩ := key k
  refine ⟨res, fun u hu => ?_⟩
  rw [← h u hu]
  unfold unescStep
  simp only [core_cur hu]

theorem cdataStep_blind (f : Flags) (after : List Byte) (cp : Nat) : Blind fun u => cdataStep f after u cp := by
  intro k
  have key : Blind fun u => if cp = 0 then .ok none
      else if cp = 0x5D then
        if [0x5D, 0x3E].isPrefixOf k.cur then .ok none else .ok (some (next (emit u [0x5D])))
      else plain f after u cp :=
    Blind.const Blind.none <| Blind.const (Blind.const Blind.none (emit_blind _)) (plain_blind _ _ _)
  obtain ⟨res, h⟩ := key k
  refine ⟨res, fun u hu => ?_⟩
  rw [← h u hu]
  unfold cdataStep
  simp only [core_cur hu]

/-! ## The loop -/

def emits (u : Unesc) (ps : List (List Byte)) : Unesc := ps.foldl emit u

theorem emits_put (ps : List (List Byte)) (u : Unesc) (k : Core) : emits (u.put k) ps = (emits u ps).put k := by
  induction ps generalizing u with
  | nil => rfl
  | cons p ps ih =>
    show emits (emit (u.put k) p) ps = _
    rw [emit_put, ih]; rfl

theorem finish_congr (u : Unesc) (k : Core) (h : k.cur = []) : finish (u.put k) =
    (if 0 < u.room then { ok := true, written := u.size, out := u.out ++ [0] }
     else { ok := true, written := u.size + 1, out := u.out }) := by
  unfold finish Unesc.put; simp [h]

/-- How a run of the loop ends: with the whole text read, with the rest unreadable, or with an error in the text. -/
inductive Outcome
  | done | stopped | failed
deriving DecidableEq

/-- The result for an outcome and the pieces that were computed. -/
def conclude (u : Unesc) (o : Outcome) (ps : List (List Byte)) : Result :=
  match o with
  | .failed => { ok := false, written := 0, out := (emits u ps).out }
  | o =>
    if 0 < (emits u ps).room then { ok := o = .done, written := (emits u ps).size, out := (emits u ps).out ++ [0] }
    else { ok := o = .done, written := (emits u ps).size + 1, out := (emits u ps).out }

theorem conclude_put (u : Unesc) (k : Core) (o : Outcome) (ps : List (List Byte)) :
    conclude (u.put k) o ps = conclude u o ps := by
  unfold conclude; rw [emits_put]; rfl

theorem finish_conclude (u : Unesc) : finish u = conclude u (if u.cur.isEmpty then .done else .stopped) [] := by
  unfold finish conclude
  cases h : u.cur.isEmpty <;> rfl

theorem conclude_cons (u : Unesc) (o : Outcome) (p : List Byte) (ps : List (List Byte)) :
    conclude u o (p :: ps) = conclude (emit u p) o ps := by
  unfold conclude emits; rfl

theorem loop_blind (step : Unesc → Nat → C (Option Unesc)) (hs : ∀ cp, Blind fun u => step u cp) :
    ∀ (fuel : Nat) (k : Core), ∃ res : C (Outcome × List (List Byte)), ∀ u : Unesc, u.core = k →
      unescLoop step fuel u = res.map fun p => conclude u p.1 p.2 := by
  intro fuel
  induction fuel with
  | zero => intro k; exact ⟨.error .diverge, fun u _ => rfl⟩
  | succ fuel ih =>
    intro k
    cases he : extract k.cur with
    | none =>
      refine ⟨.ok (if k.cur.isEmpty then .done else .stopped, []), fun u hu => ?_⟩
      unfold unescLoop
      rw [core_cur hu, he]
      show Except.ok (finish u) = _
      rw [finish_conclude, core_cur hu]; rfl
    | some p =>
      obtain ⟨cp, cur⟩ := p
      obtain ⟨rs, hs'⟩ := hs cp { k with cur := cur }
      dsimp only at hs'
      cases rs with
      | error e =>
        refine ⟨.error e, fun u hu => ?_⟩
        unfold unescLoop
        rw [core_cur hu, he]
        dsimp only
        rw [hs' { u with cur := cur } (by rw [← hu]; rfl)]
        rfl
      | ok o =>
        cases o with
        | none =>
          refine ⟨.ok (.failed, []), fun u hu => ?_⟩
          unfold unescLoop
          rw [core_cur hu, he]
          dsimp only
          rw [hs' { u with cur := cur } (by rw [← hu]; rfl)]
          rfl
        | some q =>
          obtain ⟨k', bs⟩ := q
          obtain ⟨res, hr⟩ := ih k'
          refine ⟨res.map fun p => (p.1, bs :: p.2), fun u hu => ?_⟩
          unfold unescLoop
          rw [core_cur hu, he]
          dsimp only
          rw [hs' { u with cur := cur } (by rw [← hu]; rfl)]
          show unescLoop step fuel ((emit { u with cur := cur } bs).put k') = _
          rw [hr _ (core_put _ _)]
          cases res with
          | error e => rfl
          | ok p =>
            show Except.ok (conclude _ p.1 p.2) = Except.ok (conclude u p.1 (bs :: p.2))
            rw [conclude_put, conclude_cons]
            have : ({ u with cur := cur } : Unesc) = u.put { u.core with cur := cur } := rfl
            rw [this, emit_put, conclude_put]

/-! ## What is written -/

theorem emit_size (u : Unesc) (bs : List Byte) : (emit u bs).size = u.size + bs.length := by unfold emit; split <;> rfl

theorem emits_size (ps : List (List Byte)) (u : Unesc) : (emits u ps).size = u.size + ps.flatten.length := by
  induction ps generalizing u with
  | nil => rfl
  | cons p ps ih =>
    show (emits (emit u p) ps).size = _
    rw [ih, emit_size]; simp; omega

theorem emit_length (u : Unesc) (bs : List Byte) :
    (emit u bs).out.length + (emit u bs).room = u.out.length + u.room := by
  unfold emit; split
  · simp only [List.length_append]; omega
  · rfl

theorem emits_length (ps : List (List Byte)) (u : Unesc) :
    (emits u ps).out.length + (emits u ps).room = u.out.length + u.room := by
  induction ps generalizing u with
  | nil => rfl
  | cons p ps ih => exact (ih (emit u p)).trans (emit_length u p)

theorem emits_fit (ps : List (List Byte)) (u : Unesc) (h : ps.flatten.length ≤ u.room) :
    (emits u ps).out = u.out ++ ps.flatten ∧ (emits u ps).room = u.room - ps.flatten.length := by
  induction ps generalizing u with
  | nil => simp [emits]
  | cons p ps ih =>
    simp only [List.flatten_cons, List.length_append] at h ⊢
    have e : emit u p = { u with out := u.out ++ p, room := u.room - p.length, size := u.size + p.length } := by
      unfold emit; rw [if_pos (by omega)]
    have := ih (emit u p) (by rw [e]; show _ ≤ u.room - p.length; omega)
    show (emits (emit u p) ps).out = _ ∧ (emits (emit u p) ps).room = _
    rw [this.1, this.2, e]
    exact ⟨by simp, by show u.room - p.length - _ = _; omega⟩

theorem emits_single (ps : List (List Byte)) (hp : ∀ p ∈ ps, p.length ≤ 1) (u : Unesc) :
    (emits u ps).room = u.room - ps.flatten.length := by
  induction ps generalizing u with
  | nil => simp [emits]
  | cons p ps ih =>
    show (emits (emit u p) ps).room = _
    rw [ih (fun q hq => hp q (List.mem_cons_of_mem _ hq))]
    have := hp p List.mem_cons_self
    simp only [List.flatten_cons, List.length_append]
    unfold emit; split
    · show u.room - p.length - _ = _; omega
    · show u.room - _ = _; omega

end Tm.Xml
