import Verif.Json.EventSpec

/-! # How deep brackets are nested -/

namespace Tm.Json

open Tm Spec

variable {P Q : List Byte → Prop}

mutual

theorem nestings_depth : ∀ (j : Json) (p : List Bool), ∀ q ∈ nestings p j, q.length ≤ p.length + depth j
  | .null, _, _, h => by cases h
  | .bool _, _, _, h => by cases h
  | .num _, _, _, h => by cases h
  | .str _, _, _, h => by cases h
  | .arr js, p, q, h => by
    have ih := nestingsItems_depth js (false :: p) q
    rw [nestings] at h
    rw [depth]
    rcases List.mem_cons.mp h with rfl | h
    · simp only [List.length_cons]; omega
    · have := ih h
      simp only [List.length_cons] at this
      omega
  | .obj ms, p, q, h => by
    have ih := nestingsMembers_depth ms (true :: p) q
    rw [nestings] at h
    rw [depth]
    rcases List.mem_cons.mp h with rfl | h
    · simp only [List.length_cons]; omega
    · have := ih h
      simp only [List.length_cons] at this
      omega

theorem nestingsItems_depth : ∀ (js : List Json) (p : List Bool), ∀ q ∈ nestingsItems p js, q.length ≤ p.length + depthItems js
  | [], _, _, h => by cases h
  | j :: js, p, q, h => by
    have ih1 := nestings_depth j p q
    have ih2 := nestingsItems_depth js p q
    rw [nestingsItems] at h
    rw [depthItems]
    rcases List.mem_append.mp h with h | h
    · have := ih1 h; omega
    · have := ih2 h; omega

theorem nestingsMembers_depth : ∀ (ms : List (List Byte × Json)) (p : List Bool), ∀ q ∈ nestingsMembers p ms, q.length ≤ p.length + depthMembers ms
  | [], _, _, h => by cases h
  | (_, j) :: ms, p, q, h => by
    have ih1 := nestings_depth j p q
    have ih2 := nestingsMembers_depth ms p q
    rw [nestingsMembers] at h
    rw [depthMembers]
    rcases List.mem_append.mp h with h | h
    · have := ih1 h; omega
    · have := ih2 h; omega

end

mutual

/-- Every level has its bracket in the text. -/
theorem depth_value : ∀ {j : Json} {v : List Byte}, Value P Q j v → depth j ≤ v.length
  | _, _, .null => Nat.zero_le _
  | _, _, .bool _ => Nat.zero_le _
  | _, _, .num _ => Nat.zero_le _
  | _, _, .str _ _ => Nat.zero_le _
  | _, _, .arrNil _ => by simp [depth, depthItems]
  | _, _, .arr (js := js) _ h1 h2 _ => by
    have i1 := depth_value h1
    have i2 := depth_items h2
    rw [depth, depthItems]
    simp only [List.length_cons, List.length_append]
    omega
  | _, _, .objNil _ => by simp [depth, depthMembers]
  | _, _, .obj (m := m) _ h1 h2 _ => by
    have i1 := depth_member h1
    have i2 := depth_members h2
    obtain ⟨n, j⟩ := m
    rw [depth, depthMembers]
    dsimp only at i1
    simp only [List.length_cons, List.length_append]
    omega

theorem depth_items : ∀ {js : List Json} {t : List Byte}, MoreValues P Q js t → depthItems js ≤ t.length
  | _, _, .nil => Nat.zero_le _
  | _, _, .cons _ _ h1 h2 => by
    have i1 := depth_value h1
    have i2 := depth_items h2
    rw [depthItems]
    simp only [List.length_cons, List.length_append]
    omega

theorem depth_member : ∀ {m : List Byte × Json} {u : List Byte}, Member P Q m u → depth m.2 ≤ u.length
  | _, _, .mk _ _ _ _ h1 => by
    have i1 := depth_value h1
    dsimp only
    simp only [List.length_cons, List.length_append]
    omega

theorem depth_members : ∀ {ms : List (List Byte × Json)} {t : List Byte}, MoreMembers P Q ms t → depthMembers ms ≤ t.length
  | _, _, .nil => Nat.zero_le _
  | _, _, .cons (m := m) _ _ h1 h2 => by
    have i1 := depth_member h1
    have i2 := depth_members h2
    obtain ⟨n, j⟩ := m
    rw [depthMembers]
    dsimp only at i1
    simp only [List.length_cons, List.length_append]
    omega

end

end Tm.Json
