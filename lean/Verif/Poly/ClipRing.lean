import Verif.Poly.ClipSpec
import Verif.Poly.Tri

/-! # Insertion of crossings into a polygon -/

namespace Tm.Poly
open Spec

variable {F : Type} {A : Arith F}

theorem change_ok {α : Type} {l : List α} {i : Nat} {x : α} (h : l[i]? = some x) (f : α → α) : change l i f = .ok (l.set i (f x)) := by
  have hi := (List.getElem?_eq_some_iff.1 h).1
  unfold change rd wr
  rw [h, ok_bind, if_pos hi]

theorem rd_some {α : Type} {l : List α} {i : Nat} {x : α} (h : l[i]? = some x) : rd l i = .ok x := by
  unfold rd
  rw [h]

theorem wr_ok {α : Type} {l : List α} {i : Nat} (h : i < l.length) (x : α) : wr l i x = .ok (l.set i x) := by
  unfold wr
  rw [if_pos h]

/-- A chain stays one if each of its links does. -/
theorem chain_imp {α : Type} {R S : α → α → Prop} {l : List α} (h : l.IsChain R)
    (H : ∀ x y, x ∈ l.dropLast → y ∈ l.tail → R x y → S x y) : l.IsChain S := by
  induction l with
  | nil => exact .nil
  | cons a l ih =>
    cases l with
    | nil => exact .singleton _
    | cons b l =>
      rw [List.isChain_cons_cons] at h ⊢
      refine ⟨H a b (by simp) (by simp) h.1, ih h.2 fun x y hx hy => H x y ?_ ?_⟩
      · rw [List.dropLast_cons_cons]
        exact List.mem_cons_of_mem _ hx
      · exact List.mem_cons_of_mem _ hy

/-- A changed array has the same links, except at the changed places. -/
theorem link_insert {data data' : List (CV F)} {at' old new : Nat}
    (hn : ∀ x, x ≠ at' → x ≠ new → data'[x]?.map (·.next) = data[x]?.map (·.next))
    (hp : ∀ x, x ≠ old → x ≠ new → data'[x]?.map (·.prev) = data[x]?.map (·.prev)) {x y : Nat} (hx : x ≠ at') (hx' : x ≠ new) (hy : y ≠ old)
    (hy' : y ≠ new) (h : Link data x y) : Link data' x y := by
  obtain ⟨⟨v, hv, e⟩, w, hw, e'⟩ := h
  constructor
  · have := hn x hx hx'
    rw [hv, Option.map_some] at this
    obtain ⟨v', h1, h2⟩ := Option.map_eq_some_iff.1 this
    exact ⟨v', h1, by rw [h2, e]⟩
  · have := hp y hy hy'
    rw [hw, Option.map_some] at this
    obtain ⟨v', h1, h2⟩ := Option.map_eq_some_iff.1 this
    exact ⟨v', h1, by rw [h2, e']⟩

theorem chain_insert {data data' : List (CV F)} {at' old new : Nat}
    (hn : ∀ x, x ≠ at' → x ≠ new → data'[x]?.map (·.next) = data[x]?.map (·.next))
    (hp : ∀ x, x ≠ old → x ≠ new → data'[x]?.map (·.prev) = data[x]?.map (·.prev))
    (h1 : Link data' at' new) (h2 : Link data' new old) {pre post : List Nat} (hc : (pre ++ at' :: old :: post).IsChain (Link data))
    (hd : (pre ++ at' :: old :: post).dropLast.Nodup) (ht : (pre ++ at' :: old :: post).tail.Nodup) (hm : new ∉ pre ++ at' :: old :: post) :
    (pre ++ at' :: new :: old :: post).IsChain (Link data') := by
  rw [List.isChain_append_cons_cons] at hc
  obtain ⟨c1, c2, c3⟩ := hc
  rw [List.isChain_append_cons_cons, List.isChain_cons_cons]
  have hd' : (pre ++ at' :: (old :: post).dropLast).Nodup := by
    rw [List.dropLast_append_of_ne_nil (by simp), List.dropLast_cons_cons] at hd
    exact hd
  have ht' : ((pre ++ [at']).tail ++ old :: post).Nodup := by
    have : (pre ++ at' :: old :: post).tail = (pre ++ [at']).tail ++ old :: post := by cases pre <;> simp
    rw [this] at ht
    exact ht
  simp only [List.mem_append, List.mem_cons, not_or] at hm
  refine ⟨chain_imp c1 fun x y hx hy => link_insert hn hp ?_ ?_ ?_ ?_, h1, h2, chain_imp c3 fun x y hx hy => link_insert hn hp ?_ ?_ ?_ ?_⟩
  · rw [List.dropLast_concat] at hx
    rintro rfl
    exact (List.nodup_append.1 hd').2.2 x hx x (by simp) rfl
  · rw [List.dropLast_concat] at hx
    rintro rfl
    exact hm.1 hx
  · rintro rfl
    exact (List.nodup_append.1 ht').2.2 y hy y (by simp) rfl
  · rintro rfl
    have := List.mem_of_mem_tail hy
    rw [List.mem_append, List.mem_singleton] at this
    rcases this with h | h
    · exact hm.1 h
    · exact hm.2.1 h
  · rintro rfl
    have := (List.nodup_cons.1 (List.nodup_append.1 hd').2.1).1
    exact this hx
  · rintro rfl
    rcases List.mem_cons.1 (List.dropLast_subset _ hx) with h | h
    · exact hm.2.2.1 h
    · exact hm.2.2.2 h
  · rintro rfl
    have := (List.nodup_cons.1 (List.nodup_append.1 ht').2.1).1
    exact this hy
  · rintro rfl
    exact hm.2.2.2 hy

/-- Going back from the end of a part of a polygon that starts with a corner. -/
theorem findIndex_spec {data : List (CV F)} (alpha : F) :
    ∀ (l : List Nat) (z : Nat), (l ++ [z]).IsChain (Link data) → (∀ x ∈ l ++ [z], ∃ v, data[x]? = some v) →
      (∃ v, (l ++ [z]).head?.bind (data[·]?) = some v ∧ v.intersect = false) →
      ∃ q at' blk, l ++ [z] = q ++ at' :: blk ∧
        (∀ y ∈ blk, ∃ v, data[y]? = some v ∧ v.intersect = true ∧ A.lt alpha v.alpha = true) ∧
        (∃ v, data[at']? = some v ∧ (v.intersect && A.lt alpha v.alpha) = false) ∧
        ∀ fuel, l.length < fuel → findIndex A data alpha fuel z = .ok at' := by
  intro l
  induction l using List.reverseRecOn with
  | nil =>
    intro z _ _ h
    obtain ⟨v, hv, hi⟩ := h
    have hv' : data[z]? = some v := hv
    refine ⟨[], z, [], rfl, (fun y h => by cases h), ⟨v, hv', by rw [hi]; rfl⟩, fun fuel hf => ?_⟩
    cases fuel with
    | zero => simp at hf
    | succ fuel => rw [findIndex, rd_some hv', ok_bind, hi]; rfl
  | append_singleton l w ih =>
    intro z hc hm hh
    obtain ⟨v, hv⟩ := hm z (by simp)
    cases hb : (v.intersect && A.lt alpha v.alpha)
    · refine ⟨l ++ [w], z, [], rfl, (fun y h => by cases h), ⟨v, hv, hb⟩, fun fuel hf => ?_⟩
      cases fuel with
      | zero => simp at hf
      | succ fuel => rw [findIndex, rd_some hv, ok_bind, hb]; rfl
    · rw [List.append_assoc, List.singleton_append, List.isChain_append_cons_cons] at hc
      obtain ⟨q, at', blk, e, h1, h2, h3⟩ := ih w hc.1 (fun x hx => hm x (by simp at hx ⊢; tauto)) (by
        obtain ⟨u, hu, hi⟩ := hh
        refine ⟨u, ?_, hi⟩
        rw [← hu]
        congr 1
        cases l <;> simp)
      refine ⟨q, at', blk ++ [z], by rw [e]; simp, fun y hy => ?_, h2, fun fuel hf => ?_⟩
      · rcases List.mem_append.1 hy with hy | hy
        · exact h1 y hy
        · rw [List.mem_singleton] at hy
          subst hy
          rw [Bool.and_eq_true] at hb
          exact ⟨v, hv, hb⟩
      · cases fuel with
        | zero => simp at hf
        | succ fuel =>
          rw [findIndex, rd_some hv, ok_bind, hb, if_pos rfl]
          obtain ⟨v', hv', e'⟩ := hc.2.1.2
          rw [hv] at hv'
          cases hv'
          rw [e']
          exact h3 fuel (by simp at hf; omega)

end Tm.Poly
