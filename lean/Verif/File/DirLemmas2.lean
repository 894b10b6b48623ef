import Verif.File.DirLemmas

/-! Creating directories: the whole function, and what uses it. -/

namespace Tm.File

theorem walk_dirs {t : Tree} : ∀ (rest pre : List (List Byte)), walk t pre rest = none → ∀ q, pre <+: q → q <+: pre ++ rest → q ≠ pre ++ rest → t q = some .dir
  | [], pre, _, q, h1, h2, h3 => by
    rw [List.append_nil] at h2 h3
    exact absurd (h2.eq_of_length (Nat.le_antisymm h2.length_le h1.length_le)) h3
  | x :: rest, pre, h, q, h1, h2, h3 => by
    rw [walk] at h
    split at h
    · next hd =>
      obtain ⟨s, rfl⟩ := h1
      cases s with
      | nil => rw [List.append_nil]; exact hd
      | cons y s =>
        have hy : y = x := by
          have := (List.prefix_append_right_inj pre).1 h2
          exact (List.cons_prefix_cons.1 this).1
        subst hy
        refine walk_dirs rest (pre ++ [y]) h _ ⟨s, by rw [List.append_assoc]; rfl⟩ ?_ ?_
        · rw [List.append_assoc]; exact h2
        · rw [List.append_assoc]; exact h3
    · cases h
    · cases h

theorem find_dirs {t : Tree} {cwd : List (List Byte)} {p : List Byte} (h : find t cwd p = .ok (some .dir)) : ∀ q, q <+: resolve cwd p → t q = some .dir := by
  intro q hq
  by_cases he : q = resolve cwd p
  · rw [he]; exact find_some h
  · rw [find] at h
    by_cases hp : p = []
    · rw [if_pos hp] at h; cases h
    · rw [if_neg hp] at h
      cases hw : walk t [] (resolve cwd p) with
      | some e => rw [hw] at h; cases h
      | none => exact walk_dirs _ _ hw q (List.nil_prefix) hq he

theorem made_self {t : Tree} {l : List (List Byte)} (h : ∀ q, q <+: l → t q = some .dir) : made t l = t := by
  funext q
  rw [made]
  split
  · next hx => exact (h q hx).symm
  · rfl

theorem directoryExists_snd (p : List Byte) (w : World) : (directoryExists p w).2 = (stat p w).2 := by rw [directoryExists, existsOf_snd]

theorem fileExists_snd (p : List Byte) (w : World) : (fileExists p w).2 = (stat p w).2 := by rw [fileExists, existsOf_snd]

/-- What happens after the copy was made. -/
def createRest (dir : List Byte) (w : World) : C (Errno × World) :=
  match directoryExists dir w with
  | (e, w) => if e.exists_ then .ok (0, w) else createLoop (dir.length + 1) dir (strchr dir 0) w

theorem createRest_spec (dir : List Byte) (w : World) (hd : dir ≠ []) :
    ∃ ec w', createRest dir w = .ok (ec, w') ∧ Calm w w' ∧ w'.allocs = w.allocs ∧ (Alone w → Grows w.tree w'.tree) ∧
      (Quiet w → dir.head? ≠ some slash → (∀ q, q <+: w.cwd → w.tree q = some .dir) → (∀ q, q <+: w.cwd ++ names dir → w.tree q = none ∨ w.tree q = some .dir) →
        ec = 0 ∧ w'.tree = made w.tree (w.cwd ++ names dir)) := by
  obtain ⟨s1, s2, s3⟩ := stat_calm dir w
  have hsnd := directoryExists_snd dir w
  have hfst : w.event.fail = false → _ := fun h => existsOf_stat' (fun n => decide (n = .dir)) dir w h
  rw [show existsOf (fun n => decide (n = .dir)) (stat dir w) = directoryExists dir w from rfl] at hfst
  rw [createRest]
  generalize directoryExists dir w = r at hsnd hfst ⊢
  generalize stat dir w = st at s1 s2 s3 hsnd
  obtain ⟨e, w1⟩ := r
  dsimp only at hsnd hfst ⊢
  subst hsnd
  by_cases hex : e.exists_ = true
  · rw [if_pos hex]
    refine ⟨0, _, rfl, s1, s2, fun ha => by rw [s3, ha.others]; exact Grows.rfl, fun hq hrel h1 h2 => ⟨rfl, ?_⟩⟩
    obtain ⟨q1, q2, q3⟩ := hq.event
    have := hfst q2
    rw [s3]
    rw [hq.alone.others] at this ⊢
    cases hfi : find w.tree w.cwd dir with
    | error e' => rw [hfi] at this; rw [this] at hex; cases hex
    | ok o =>
      cases o with
      | none => rw [hfi] at this; rw [this] at hex; cases hex
      | some n =>
        rw [hfi] at this
        rw [this] at hex
        have hn : n = .dir := of_decide_eq_true hex
        subst hn
        have := find_dirs hfi
        rw [resolve, if_neg hrel] at this
        exact (made_self this).symm
  · rw [if_neg hex]
    obtain ⟨ec, w', e1, k1, k2, k3⟩ := createLoop_calm dir (dir.length + 1) (strchr dir 0) st.2 (fun j hj => by obtain ⟨q1, q2, _⟩ := strchr_some hj; omega) (fun _ => by omega)
    refine ⟨ec, w', e1, s1.trans k1, k2.trans s2, fun ha => ?_, fun hq hrel h1 h2 => ?_⟩
    · have := k3 (ha.drop s1.plan)
      rw [s3, ha.others] at this
      exact this
    · have hq1 : Quiet st.2 := hq.drop s1.plan (by rw [s2]; exact fun _ h => h)
      have ht : st.2.tree = w.tree := by rw [s3, hq.alone.others]
      obtain ⟨w'', e2, g1⟩ := createLoop_spec (t := w.tree) hrel (dir.length + 1) (strchr dir 0) st.2 [] hq1 (by
          intro i hi
          obtain ⟨q1, q2, seg, q3, q4, q5⟩ := strchr_some hi
          rw [List.drop_zero] at q4
          rw [List.take_zero, List.nil_append] at q5
          refine ⟨q2, ?_, by omega, by rw [q5]; exact q4⟩
          refine Nat.pos_of_ne_zero fun hx => hrel ?_
          subst hx
          rw [List.take_zero] at q5
          rw [q4, ← q5]
          rfl) (fun _ => by omega) hd (by
          cases hi : strchr dir 0 with
          | none =>
            refine ⟨names dir, rfl, ?_⟩
            have := strchr_none hi
            rw [List.drop_zero] at this
            rcases names_plain this with h | h
            · exact Or.inl h
            · exact Or.inr ⟨_, h⟩
          | some i =>
            obtain ⟨q1, q2, seg, q3, q4, q5⟩ := strchr_some hi
            rw [List.take_zero, List.nil_append] at q5
            refine ⟨names seg, by rw [cutAt, q5]; rfl, ?_⟩
            rcases names_plain q3 with h | h
            · exact Or.inl h
            · exact Or.inr ⟨_, h⟩) (by rw [ht, List.append_nil, s1.cwd]; exact (made_self h1).symm) (by rw [s1.cwd]; exact h2)
      rw [e1] at e2
      injection e2 with e2
      injection e2 with e2 e3
      subst e2 e3
      exact ⟨rfl, by rw [g1, s1.cwd]⟩

theorem createInternal_eq (dir : List Byte) (w : World) : createDirectoryInternal dir w =
    (if dir.length = 0 then .ok (0, w)
    else if dir = [slash] then .ok (0, w)
    else if dir = [0x2E, slash] ∨ dir = [0x7E, slash] then .ok (0, w)
    else match toPlatformPath dir w with
      | (none, w) => .ok (ENOMEM, w)
      | (some b, w) => do
        let (r, w) ← createRest dir w
        let w ← destroyPath b w
        .ok (r, w)) := by
  rw [createDirectoryInternal]
  generalize toPlatformPath dir w = a
  obtain ⟨a1, a2⟩ := a
  cases a1 with
  | none => rfl
  | some b =>
    dsimp only
    rw [createRest]
    generalize directoryExists dir a2 = r
    obtain ⟨r1, r2⟩ := r
    dsimp only
    by_cases h : r1.exists_ = true
    · rw [if_pos h, if_pos h]; rfl
    · rw [if_neg h, if_neg h]

/-- Creating a directory. -/
theorem createInternal_spec (dir : List Byte) (w : World) :
    ∃ ec w', createDirectoryInternal dir w = .ok (ec, w') ∧ Calm w w' ∧ (Alone w → Grows w.tree w'.tree) ∧ (∀ a ∈ w'.allocs, a ∈ w.allocs) ∧
      (Quiet w → dir.head? ≠ some slash → dir ≠ [0x7E, slash] → (∀ q, q <+: w.cwd → w.tree q = some .dir) →
        (∀ q, q <+: w.cwd ++ names dir → w.tree q = none ∨ w.tree q = some .dir) → ec = 0 ∧ w'.tree = made w.tree (w.cwd ++ names dir)) := by
  rw [createInternal_eq]
  by_cases h1 : dir.length = 0
  · rw [if_pos h1]
    refine ⟨0, w, rfl, Calm.rfl, fun _ => Grows.rfl, fun _ h => h, fun _ _ _ h2 _ => ⟨rfl, ?_⟩⟩
    rw [List.length_eq_zero_iff.1 h1, names_nil, List.append_nil, made_self h2]
  · rw [if_neg h1]
    by_cases h2 : dir = [slash]
    · rw [if_pos h2]
      exact ⟨0, w, rfl, Calm.rfl, fun _ => Grows.rfl, fun _ h => h, fun _ hx => absurd (by rw [h2]; rfl) hx⟩
    · rw [if_neg h2]
      by_cases h3 : dir = [0x2E, slash] ∨ dir = [0x7E, slash]
      · rw [if_pos h3]
        refine ⟨0, w, rfl, Calm.rfl, fun _ => Grows.rfl, fun _ h => h, fun _ _ hx hd _ => ⟨rfl, ?_⟩⟩
        rw [h3.resolve_right hx]
        have : names [0x2E, slash] = [] := by decide
        rw [this, List.append_nil, made_self hd]
      · rw [if_neg h3]
        have hd : dir ≠ [] := fun hx => h1 (by rw [hx]; rfl)
        obtain ⟨r, w', e1, e2, e3⟩ := copied dir w ENOMEM (fun v r v' => v'.allocs = v.allocs ∧ (Alone v → Grows v.tree v'.tree) ∧
            (Quiet v → dir.head? ≠ some slash → (∀ q, q <+: v.cwd → v.tree q = some .dir) → (∀ q, q <+: v.cwd ++ names dir → v.tree q = none ∨ v.tree q = some .dir) →
              r = 0 ∧ v'.tree = made v.tree (v.cwd ++ names dir))) (createRest dir)
          (fun v _ _ _ _ _ _ _ _ _ => by
            obtain ⟨ec, w', e1, k1, k2, k3, k4⟩ := createRest_spec dir v hd
            exact ⟨ec, w', e1, k1, k2, k3, k4⟩)
          (fun _ _ _ _ h => h)
          (fun r w' => (Alone w → Grows w.tree w'.tree) ∧ (∀ a ∈ w'.allocs, a ∈ w.allocs) ∧
            (Quiet w → dir.head? ≠ some slash → dir ≠ [0x7E, slash] → (∀ q, q <+: w.cwd → w.tree q = some .dir) →
              (∀ q, q <+: w.cwd ++ names dir → w.tree q = none ∨ w.tree q = some .dir) → r = 0 ∧ w'.tree = made w.tree (w.cwd ++ names dir)))
          (fun v r v' t1 t2 t3 t4 _ ⟨p1, p2, p3⟩ => by
            refine ⟨fun ha => by rw [← t1]; exact p2 (ha.same t2), fun a ha => t4 a (p1 ▸ ha), fun hq hrel _ c1 c2 => ?_⟩
            rw [← t1, ← t3] at *
            exact p3 (hq.same t2 t4) hrel c1 c2)
          (fun w' hx hc ht ha => ⟨fun _ => by rw [ht]; exact Grows.rfl, ha, fun hq => absurd (hq.allocs _ hx) (by simp)⟩)
        exact ⟨r, w', e1, e2, e3⟩

end Tm.File
