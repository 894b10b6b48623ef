import Verif.File.DirLemmas2

/-! Writing files. -/

namespace Tm.File

/-! ## Where the name starts -/

theorem pathLenLoop_ok (p : List Byte) : ∀ n, n ≤ p.length → ∃ k, pathLenLoop p n = .ok k ∧ k ≤ n
  | 0, _ => ⟨0, rfl, Nat.le_refl _⟩
  | n + 1, h => by
    obtain ⟨k, h1, h2⟩ := pathLenLoop_ok p n (by omega)
    rw [pathLenLoop, rd, List.getElem?_eq_getElem (by rw [List.length_append, List.length_singleton]; omega)]
    dsimp only
    rw [ok_bind]
    split
    · exact ⟨k, h1, by omega⟩
    · exact ⟨n + 1, rfl, Nat.le_refl _⟩

theorem pathLen_ok (p : List Byte) : ∃ k, pathLen p = .ok k ∧ k ≤ p.length := pathLenLoop_ok p p.length (Nat.le_refl _)

/-- The characters that end a directory for `tmu_get_path_len_internal`. -/
def Ends (b : Byte) : Prop := b = slash ∨ b = 0x5C ∨ b = 0x3A ∨ b = 0x7E

theorem pathLenLoop_skip (p : List Byte) : ∀ n, n ≤ p.length → ∀ k, k ≤ n → (∀ i b, k < i → i ≤ n → (p ++ [0])[i]? = some b → ¬ Ends b) → pathLenLoop p n = pathLenLoop p k
  | 0, _, k, hk, _ => by rw [Nat.le_zero.1 hk]
  | n + 1, h, k, hk, hb => by
    by_cases he : k = n + 1
    · rw [he]
    · have hlt : n + 1 < (p ++ [0]).length := by rw [List.length_append, List.length_singleton]; omega
      rw [← pathLenLoop_skip p n (by omega) k (by omega) (fun i b h1 h2 => hb i b h1 (by omega)), pathLenLoop, rd, List.getElem?_eq_getElem hlt]
      dsimp only
      rw [ok_bind, if_pos]
      have := hb (n + 1) _ (by omega) (Nat.le_refl _) (List.getElem?_eq_getElem hlt)
      rw [Ends, not_or, not_or, not_or] at this
      exact this

theorem pathLen_slash {d n : List Byte} (h : ∀ b ∈ n, ¬ Ends b) : pathLen (d ++ slash :: n) = .ok d.length := by
  rw [pathLen, pathLenLoop_skip _ _ (Nat.le_refl _) d.length (by rw [List.length_append]; omega)]
  · cases hd : d.length with
    | zero => rfl
    | succ k =>
      have : (d ++ slash :: n ++ [0])[k + 1]? = some slash := by
        rw [List.append_assoc, List.getElem?_append_right (by omega), hd, Nat.sub_self]
        rfl
      rw [pathLenLoop, rd, this]
      dsimp only
      rw [ok_bind, if_neg (fun hx => hx.1 rfl)]
  · intro i b h1 h2 h3
    rw [List.append_assoc, List.getElem?_append_right (by omega), List.cons_append] at h3
    obtain ⟨j, hj⟩ : ∃ j, i - d.length = j + 1 := ⟨i - d.length - 1, by omega⟩
    rw [hj, List.getElem?_cons_succ] at h3
    have := List.mem_of_getElem? h3
    rcases List.mem_append.1 this with hm | hm
    · exact h b hm
    · rw [List.mem_singleton.1 hm]
      unfold Ends
      decide

theorem pathLen_plain {n : List Byte} (h : ∀ b ∈ n, ¬ Ends b) : pathLen n = .ok 0 := by
  rw [pathLen, pathLenLoop_skip _ _ (Nat.le_refl _) 0 (by omega), pathLenLoop]
  intro i b h1 h2 h3
  rcases List.mem_append.1 (List.mem_of_getElem? h3) with hm | hm
  · exact h b hm
  · rw [List.mem_singleton.1 hm]
    unfold Ends
    decide

/-! ## Before the file is opened -/

theorem createTree_spec (flags : Flags) (p : List Byte) (w : World) :
    ∃ ec w', createTree flags p w = .ok (ec, w') ∧ Calm w w' ∧ (Alone w → Grows w.tree w'.tree) ∧ (∀ a ∈ w'.allocs, a ∈ w.allocs) ∧ (flags.createTree = false → ec = 0 ∧ w' = w) ∧
      (Quiet w → flags.createTree = true → ∀ k, pathLen p = .ok k → (p.take k).head? ≠ some slash → p.take k ≠ [0x7E, slash] → Here w →
        Clear w.tree (w.cwd ++ names (p.take k)) → ec = 0 ∧ w'.tree = made w.tree (w.cwd ++ names (p.take k))) := by
  rw [createTree]
  by_cases h : flags.createTree = true
  · rw [if_pos h]
    obtain ⟨k, hk, _⟩ := pathLen_ok p
    obtain ⟨ec, w', e1, k1, k2, k3, k4⟩ := createInternal_spec (p.take k) w
    rw [hk, ok_bind]
    refine ⟨ec, w', e1, k1, k2, k3, fun hx => absurd h (by rw [hx]; simp), fun hq _ j hj => ?_⟩
    injection hj with hj
    subst hj
    exact k4 hq
  · rw [if_neg h]
    exact ⟨0, w, rfl, Calm.rfl, fun _ => Grows.rfl, fun _ h => h, fun _ => ⟨rfl, rfl⟩, fun _ hx => absurd hx h⟩

theorem Honest.event {w : World} (h : Honest w) (hf : w.event.fail = true) : w.event.err ≠ 0 ∧ w.event.err ≠ ENOENT ∧ w.event.err ≠ ENOTDIR := by
  rcases event_mem w with he | he
  · rw [he] at hf; cases hf
  · exact h _ he hf

theorem Honest.drop {w w' : World} (h : Honest w) (hp : ∃ n, w'.plan = w.plan.drop n) : Honest w' := by
  obtain ⟨n, hn⟩ := hp
  exact fun e he => h e (List.mem_of_mem_drop (hn ▸ he))

theorem fileExists_fail (p : List Byte) (w : World) (hf : w.event.fail = true) (hh : Honest w) : (fileExists p w).1 = ⟨false, w.event.err⟩ := by
  obtain ⟨h1, h2, h3⟩ := hh.event hf
  have hs : stat p w = (none, w.start.stop w.event.err) := by rw [stat, World.plain, if_pos hf]
  have he : (w.start.stop w.event.err).errno = w.event.err := by
    show (if w.event.err = 0 then _ else _) = _
    rw [if_neg h1]
  rw [fileExists, hs, existsOf]
  dsimp only
  rw [he, if_neg (by rintro (h | h); exact h2 h; exact h3 h)]

theorem checkAbsent_spec (flags : Flags) (p : List Byte) (w : World) :
    Calm w (checkAbsent flags p w).2 ∧ (checkAbsent flags p w).2.allocs = w.allocs ∧ (Alone w → (checkAbsent flags p w).2.tree = w.tree) ∧
      (Alone w → Honest w → flags.overwrite = false → (checkAbsent flags p w).1 = 0 → ∀ b, find w.tree w.cwd p ≠ .ok (some (.file b))) ∧
      (Quiet w → (flags.overwrite = true ∨ ∀ b, find w.tree w.cwd p ≠ .ok (some (.file b))) → (checkAbsent flags p w).1 = 0) ∧
      (Quiet w → flags.overwrite = false → ∀ b, find w.tree w.cwd p = .ok (some (.file b)) → (checkAbsent flags p w).1 = EEXIST) := by
  rw [checkAbsent]
  by_cases h : flags.overwrite = true
  · rw [if_pos h]
    exact ⟨Calm.rfl, rfl, fun _ => rfl, fun _ _ hx => absurd h (by rw [hx]; simp), fun _ _ => rfl, fun _ hx => absurd h (by rw [hx]; simp)⟩
  · rw [if_neg h]
    obtain ⟨s1, s2, s3⟩ := stat_calm p w
    have hsnd := fileExists_snd p w
    have hfail := fileExists_fail p w
    have hfst : w.event.fail = false → (fileExists p w).1 = _ := fun h => existsOf_stat' _ p w h
    generalize fileExists p w = r at hsnd hfst hfail ⊢
    generalize stat p w = st at s1 s2 s3 hsnd
    obtain ⟨e, w1⟩ := r
    dsimp only at hsnd hfst hfail ⊢
    subst hsnd
    refine ⟨s1, s2, fun ha => by rw [s3, ha.others], fun ha hh _ h0 b hb => ?_, fun hq hx => ?_, fun hq _ b hb => ?_⟩
    · cases hf : w.event.fail with
      | true =>
        rw [hfail hf hh] at h0
        dsimp only at h0
        rw [if_pos (hh.event hf).1] at h0
        exact (hh.event hf).1 h0
      | false =>
        have := hfst hf
        rw [ha.others, hb] at this
        rw [this] at h0
        cases h0
    · have := hfst hq.event.2.1
      rw [hq.alone.others] at this
      have hx := hx.resolve_left h
      cases hfi : find w.tree w.cwd p with
      | error e' => rw [hfi] at this; rw [this]; rfl
      | ok o =>
        cases o with
        | none => rw [hfi] at this; rw [this]; rfl
        | some n =>
          rw [hfi] at this
          rw [this]
          cases n with
          | file b => exact absurd hfi (hx b)
          | dir => rfl
          | other => rfl
    · have := hfst hq.event.2.1
      rw [hq.alone.others, hb] at this
      rw [this]
      rfl

theorem grows_find {t t' : Tree} {cwd : List (List Byte)} {p : List Byte} {n : Node} (h : find t cwd p = .ok (some n)) (g : Grows t t') : find t' cwd p = .ok (some n) := by
  have hs := find_some h
  have keep : ∀ q m, t q = some m → t' q = some m := by
    intro q m hq
    rcases g q with g | ⟨g, _⟩
    · rw [g, hq]
    · rw [hq] at g; cases g
  rw [find] at h ⊢
  by_cases hp : p = []
  · rw [if_pos hp] at h; cases h
  · rw [if_neg hp] at h ⊢
    cases hw : walk t [] (resolve cwd p) with
    | some e => rw [hw] at h; cases h
    | none =>
      rw [hw] at h
      rw [walk_none (resolve cwd p) [] (fun q h1 h2 => keep q _ (walk_dirs _ _ hw q List.nil_prefix h1 h2)), keep _ _ hs]
      rw [hs] at h
      exact h

/-! ## Writing -/

theorem writeInternal_spec (p data : List Byte) (flags : Flags) (w : World) (hf : Fresh w) :
    ∃ r w', writeFileInternal p data flags w = .ok (r, w') ∧ Calm w w' ∧
      (Alone w → ∃ t, Grows w.tree t ∧ (flags.createTree = false → t = w.tree) ∧ (w'.tree = t ∨ ∃ b, b <+: data ∧ w'.tree = place t (resolve w.cwd p) (some (.file b))) ∧
        (r.ec = 0 → r.written = data.length ∧ Writable t w.cwd p ∧ ∃ b, b <+: data ∧ w'.tree = place t (resolve w.cwd p) (some (.file b)) ∧ (NoFail w → b = data))) ∧
      (Alone w → Honest w → flags.overwrite = false → ∀ b, find w.tree w.cwd p = .ok (some (.file b)) → r.ec ≠ 0 ∧ Grows w.tree w'.tree ∧ (flags.createTree = false → w'.tree = w.tree)) ∧
      (Quiet w → (flags.overwrite = true ∨ ∀ b, find w.tree w.cwd p ≠ .ok (some (.file b))) → flags.createTree = false → Writable w.tree w.cwd p → r.ec = 0) ∧
      (Quiet w → flags.createTree = true → ∀ k, pathLen p = .ok k → (p.take k).head? ≠ some slash → p.take k ≠ [0x7E, slash] → Here w → Clear w.tree (w.cwd ++ names (p.take k)) →
        Writable (made w.tree (w.cwd ++ names (p.take k))) w.cwd p →
        (flags.overwrite = true ∨ ∀ b, find (made w.tree (w.cwd ++ names (p.take k))) w.cwd p ≠ .ok (some (.file b))) →
        r.ec = 0 ∧ w'.tree = place (made w.tree (w.cwd ++ names (p.take k))) (resolve w.cwd p) (some (.file data))) := by
  obtain ⟨ec, w1, e1, a1, a2, a3, a4, a5⟩ := createTree_spec flags p w
  rw [writeFileInternal, e1, ok_bind]
  dsimp only
  by_cases h1 : ec ≠ 0
  · rw [if_pos h1]
    refine ⟨⟨0, ec⟩, w1, rfl, a1, fun ha => ⟨w1.tree, a2 ha, fun hx => by rw [(a4 hx).2], Or.inl rfl, fun hx => absurd hx h1⟩, fun ha _ _ b hb => ⟨h1, a2 ha, fun hx => by rw [(a4 hx).2]⟩,
      fun hq hx hc => absurd (a4 hc).1 h1, fun hq hc k hk c1 c2 c3 c4 => absurd (a5 hq hc k hk c1 c2 c3 c4).1 h1⟩
  · rw [if_neg h1]
    obtain ⟨b1, b2, b3, b4, b5, _⟩ := checkAbsent_spec flags p w1
    generalize checkAbsent flags p w1 = c at b1 b2 b3 b4 b5 ⊢
    obtain ⟨ec2, w2⟩ := c
    dsimp only at b1 b2 b3 b4 b5 ⊢
    have h0 : ec = 0 := Decidable.byContradiction h1
    have ht2 : Alone w → w2.tree = w1.tree := fun ha => b3 (ha.drop a1.plan)
    have hkept : Alone w → Honest w → flags.overwrite = false → ∀ b, find w.tree w.cwd p = .ok (some (.file b)) → ec2 ≠ 0 := by
      intro ha hh ho b hb hx
      refine b4 (ha.drop a1.plan) (hh.drop a1.plan) ho hx b ?_
      rw [a1.cwd]
      exact grows_find hb (a2 ha)
    by_cases h2 : ec2 ≠ 0
    · rw [if_pos h2]
      refine ⟨⟨0, ec2⟩, w2, rfl, a1.trans b1, fun ha => ⟨w1.tree, a2 ha, fun hx => by rw [(a4 hx).2], Or.inl (ht2 ha), fun hx => absurd hx h2⟩,
        fun ha hh ho b hb => ⟨h2, by rw [ht2 ha]; exact a2 ha, fun hx => by rw [ht2 ha, (a4 hx).2]⟩, fun hq hx hc hw => ?_, fun hq hc k hk c1 c2 c3 c4 hw hx => ?_⟩
      · obtain ⟨_, rfl⟩ := a4 hc
        exact absurd (b5 hq hx) h2
      · obtain ⟨_, g⟩ := a5 hq hc k hk c1 c2 c3 c4
        refine absurd (b5 (hq.drop a1.plan a3) ?_) h2
        rw [a1.cwd, g]
        exact hx
    · rw [if_neg h2]
      have h20 : ec2 = 0 := Decidable.byContradiction h2
      have hf2 : Fresh w2 := (a1.trans b1).fresh hf
      have hplan := (a1.trans b1).plan
      have hcwd : w2.cwd = w.cwd := (a1.trans b1).cwd
      obtain ⟨r, w3, e3, k1, k2, k3, k4⟩ := writeOut_spec p data w2 hf2
      refine ⟨r, w3, e3, (a1.trans b1).trans k1, fun ha => ?_, fun ha hh ho b hb => absurd h20 (hkept ha hh ho b hb), fun hq hx hc hw => ?_, fun hq hc k hk c1 c2 c3 c4 hw hx => ?_⟩
      · have ha2 := ha.drop hplan
        refine ⟨w1.tree, a2 ha, fun hx => by rw [(a4 hx).2], ?_, fun hr => ?_⟩
        · have := k2 ha2
          rw [ht2 ha, hcwd] at this
          exact this
        · obtain ⟨q1, q2, b, q3, q4, q5⟩ := k3 ha2 hr
          rw [ht2 ha, hcwd] at q2 q4
          exact ⟨q1, q2, b, q3, q4, fun hn => q5 (hn.drop hplan)⟩
      · obtain ⟨_, rfl⟩ := a4 hc
        refine k4 (hq.drop hplan (by rw [b2]; exact fun _ h => h)) ?_
        rw [ht2 hq.alone, hcwd]
        exact hw
      · obtain ⟨_, g⟩ := a5 hq hc k hk c1 c2 c3 c4
        have hq2 : Quiet w2 := hq.drop hplan (by rw [b2]; exact a3)
        have ht : w2.tree = made w.tree (w.cwd ++ names (p.take k)) := by rw [ht2 hq.alone, g]
        have hr := k4 hq2 (by rw [ht, hcwd]; exact hw)
        obtain ⟨q1, q2, b, q3, q4, q5⟩ := k3 hq2.alone hr
        rw [q5 hq2.noFail, ht, hcwd] at q4
        exact ⟨hr, q4⟩

end Tm.File
