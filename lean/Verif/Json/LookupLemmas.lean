import Verif.Json.Value
import Verif.Json.ValueSpec
import Mathlib.Data.List.Forall2
import Mathlib.Data.List.Nodup

/-!
# Lookup of members: lemmas
-/

namespace Tm.Json

open Tm Spec

/-- The members have these names. -/
abbrev Named (members : List (View × JVal)) (names : List (List Byte)) : Prop :=
  List.Forall₂ (fun m t => m.1.text = .ok t) members names

theorem nameIs_text {v : View} {t name : List Byte} (h : v.text = .ok t) : nameIs v name = .ok (decide (t = name)) := by
  have hl : v.size = t.length := by unfold View.text at h; grind
  unfold nameIs
  by_cases e : v.size = name.length
  · rw [if_neg (by simp [e]), h]
    rfl
  · rw [if_pos e]
    have : t ≠ name := by
      rintro rfl
      exact e hl
    simp [this]

theorem findName_eq (name : List Byte) : ∀ {members : List (View × JVal)} {names : List (List Byte)} (i : Nat), Named members names →
    findName name members i = .ok ((names.findIdx? (fun t => decide (t = name))).map (i + ·))
  | [], _, i, h => by cases h; rfl
  | m :: ms, _, i, h => by
    cases h with
    | cons h1 h2 =>
      rename_i t ts
      rw [findName, nameIs_text h1, ok_bind, List.findIdx?_cons]
      by_cases e : t = name
      · simp [e]
      · simp only [e, decide_false, Bool.false_eq_true, if_false]
        rw [findName_eq name (i + 1) h2]
        congr 1
        rw [Option.map_map]
        congr 1
        funext k
        simp; omega

theorem named_drop {members : List (View × JVal)} {names : List (List Byte)} (h : Named members names) (k : Nat) :
    Named (members.drop k) (names.drop k) := by
  induction h generalizing k with
  | nil => simp
  | cons h1 h2 ih => cases k with
    | zero => exact .cons h1 h2
    | succ k => exact ih k

theorem named_take {members : List (View × JVal)} {names : List (List Byte)} (h : Named members names) (k : Nat) :
    Named (members.take k) (names.take k) := by
  induction h generalizing k with
  | nil => simp
  | cons h1 h2 ih => cases k with
    | zero => exact .nil
    | succ k => exact .cons h1 (ih k)

/-- What a lookup that starts at the member `last` finds. -/
def foundFrom (names : List (List Byte)) (name : List Byte) (last : Nat) : Option Nat :=
  ((names.drop last).findIdx? (fun t => decide (t = name))).map (last + ·) <|>
    (names.take last).findIdx? (fun t => decide (t = name))

theorem queryMember_eq {members : List (View × JVal)} {names : List (List Byte)} (h : Named members names) (name : List Byte) (last : Nat)
    (hl : last ≤ members.length) :
    queryMember members name last = .ok (foundFrom names name last, (foundFrom names name last).getD last) := by
  unfold queryMember
  rw [if_neg (by omega), findName_eq name last (named_drop h last), ok_bind]
  unfold foundFrom
  cases (names.drop last).findIdx? (fun t => decide (t = name)) with
  | some k => simp
  | none =>
    simp only [Option.map_none]
    rw [findName_eq name 0 (named_take h last), ok_bind]
    cases (names.take last).findIdx? (fun t => decide (t = name)) with
    | some k => simp
    | none => simp

theorem foundFrom_some {names : List (List Byte)} {name : List Byte} {last i : Nat} (h : foundFrom names name last = some i) :
    names[i]? = some name := by
  unfold foundFrom at h
  cases e : (names.drop last).findIdx? (fun t => decide (t = name)) with
  | some k =>
    simp [e] at h
    subst h
    obtain ⟨hk, ht, _⟩ := List.findIdx?_eq_some_iff_getElem.1 e
    rw [List.getElem_drop] at ht
    rw [List.length_drop] at hk
    rw [List.getElem?_eq_getElem (by omega)]
    simpa using ht
  | none =>
    rw [e, Option.map_none] at h
    replace h : (names.take last).findIdx? (fun t => decide (t = name)) = some i := h
    obtain ⟨hk, ht, _⟩ := List.findIdx?_eq_some_iff_getElem.1 h
    rw [List.getElem_take] at ht
    rw [List.length_take] at hk
    rw [List.getElem?_eq_getElem (by omega)]
    simpa using ht

theorem foundFrom_none {names : List (List Byte)} {name : List Byte} {last : Nat} (h : foundFrom names name last = none) :
    name ∉ names := by
  unfold foundFrom at h
  cases e : (names.drop last).findIdx? (fun t => decide (t = name)) with
  | some k => simp [e] at h
  | none =>
    rw [e, Option.map_none] at h
    replace h : (names.take last).findIdx? (fun t => decide (t = name)) = none := h
    rw [List.findIdx?_eq_none_iff] at e h
    rw [← List.take_append_drop last names, List.mem_append]
    rintro (hm | hm)
    · have := h name hm
      simp at this
    · have := e name hm
      simp at this

theorem foundFrom_zero (names : List (List Byte)) (name : List Byte) :
    foundFrom names name 0 = names.findIdx? (fun t => decide (t = name)) := by
  unfold foundFrom
  simp

/-- With distinct names the start does not matter. -/
theorem foundFrom_distinct {names : List (List Byte)} (hn : names.Nodup) (name : List Byte) (last : Nat) :
    foundFrom names name last = names.findIdx? (fun t => decide (t = name)) := by
  rw [← foundFrom_zero]
  cases a : foundFrom names name last with
  | none =>
    cases b : foundFrom names name 0 with
    | none => rfl
    | some i => exact absurd (List.mem_of_getElem? (foundFrom_some b)) (foundFrom_none a)
  | some i =>
    cases b : foundFrom names name 0 with
    | none => exact absurd (List.mem_of_getElem? (foundFrom_some a)) (foundFrom_none b)
    | some k =>
      have ha := foundFrom_some a
      have hb := foundFrom_some b
      obtain ⟨hi, ei⟩ := List.getElem?_eq_some_iff.1 ha
      obtain ⟨hk, ek⟩ := List.getElem?_eq_some_iff.1 hb
      congr 1
      exact (hn.getElem_inj_iff).1 (ei.trans ek.symm)

theorem named_length {members : List (View × JVal)} {names : List (List Byte)} (h : Named members names) :
    members.length = names.length := h.length_eq

theorem queryMember_room {names : List (List Byte)} {name : List Byte} {last : Nat} (hl : last ≤ names.length) :
    (foundFrom names name last).getD last ≤ names.length := by
  cases e : foundFrom names name last with
  | none => exact hl
  | some i => exact Nat.le_of_lt (List.getElem?_eq_some_iff.1 (foundFrom_some e)).1

end Tm.Json
