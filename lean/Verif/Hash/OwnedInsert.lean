import Verif.Hash.OwnedSim
namespace Tm.Hash.Owned

variable {V X W : Type} {vs : Values V X} {own : V → List Nat} {val : Heap → V → W} {Fine : X → Prop} {given : X → W}

/-- An `insert_move` does what the abstract one does, and owns what it should. -/
def SimIns (vs : Values V X) (own : V → List Nat) (val : Heap → V → W) (insC : Ins' V) (insA : Ins (Option (List Byte)) W) : Prop :=
  ∀ (h : Heap) (cm : HMap V) (am : Map (Option (List Byte)) W) (a : Nat) (v : V) (l : List Nat) (t : List Byte) (r : Res (Option (List Byte)) W),
    Sim own val h cm am → Owns h (mapOwn own cm ++ (a :: (own v ++ l))) → h.live a = some t → 0 ∈ t →
    insA am h.calls (some (chars t)) (val h v) = .ok r →
    ∃ cm' key' val' h', insC h cm (some a) (some v) = .ok ⟨r.ok, cm', key', val', h'⟩ ∧ Sim own val h' cm' r.map ∧ h'.calls = r.calls ∧
      (r.ok = true → key' = none ∧ val' = vs.left (some v) ∧ Owns h' (mapOwn own cm' ++ l) ∧ Keep h h' l) ∧
      (r.ok = false → key' = some a ∧ val' = some v ∧ Owns h' (mapOwn own cm' ++ (a :: (own v ++ l))) ∧ Keep h h' (a :: (own v ++ l)))

theorem rehash_sim (P : Proper vs own val Fine given) {insC : Ins' V} {insA : Ins (Option (List Byte)) W} (hi : SimIns vs own val insC insA) :
    ∀ (left i : Nat) (h : Heap) (old new : HMap V) (aold anew : Map (Option (List Byte)) W) (l : List Nat) (r : Hash.Rehashed (Option (List Byte)) W),
      Sim own val h old aold → Sim own val h new anew → Owns h (mapOwn own new ++ (mapOwn own old ++ l)) →
      Hash.rehash stringKeys insA left i aold anew h.calls = .ok r →
      ∃ old' new' h', rehash vs insC left i old new h = .ok ⟨r.ok, old', new', h'⟩ ∧ Sim own val h' old' r.old ∧ Sim own val h' new' r.new ∧
        h'.calls = r.calls ∧ Owns h' (mapOwn own new' ++ (mapOwn own old' ++ l)) ∧ Keep h h' l
  | 0, i, h, old, new, aold, anew, l, r, so, sn, o, hr => by
    unfold Hash.rehash at hr
    cases hr
    exact ⟨old, new, h, rfl, so, sn, rfl, o, Keep.refl _ _⟩
  | left + 1, i, h, old, new, aold, anew, l, r, so, sn, o, hr => by
    have oo : Owns h (mapOwn own old ++ (mapOwn own new ++ l)) := o.congr fun x => by simp only [List.count_append]; omega
    unfold Hash.rehash at hr
    unfold rehash
    rw [at_eq oo so]
    cases hx : old.slots[i]? with
    | none =>
      unfold rd at hr
      rw [so.keys, List.getElem?_map, hx] at hr
      cases hr
    | some x =>
      have hlt := (List.getElem?_eq_some_iff.mp hx).1
      rw [rd_some (so.key hx), ok_bind] at hr
      rw [rd_some hx, ok_bind]
      obtain ⟨q, u⟩ := x
      cases q with
      | none =>
        rw [if_pos (by rfl)] at hr
        exact rehash_sim P hi left (i + 1) h old new aold anew l r so sn o hr
      | some a =>
        obtain ⟨t, ht, h0⟩ := so.strs i a u hx
        obtain ⟨v, rfl, hv⟩ := so.vals i a u hx
        have hk : contentsOf h (some a) = some (chars t) := by unfold contentsOf; rw [Option.bind_some, ht]; rfl
        simp only [hk] at hr
        rw [if_neg (by simp), rd_some hv, ok_bind] at hr
        dsimp only at hr ⊢
        cases hA : insA anew h.calls (some (chars t)) (val h v) with
        | error e => rw [hA] at hr; cases hr
        | ok ra =>
          rw [hA, ok_bind] at hr
          -- the entry leaves the old map
          have hcl : ∀ w y, (mapOwn own old).count y = (mapOwn own { old with slots := old.slots.set i (none, w), count := old.count }).count y +
              (a :: own v).count y := fun w y => mapOwn_clear (own := own) hx w old.count y
          obtain ⟨cm', key', val', h1, e1, s1, c1, hok, hfail⟩ := hi h new anew a v
            (mapOwn own { old with slots := old.slots.set i (none, none), count := old.count } ++ l) t ra sn
            (o.congr fun y => by
              have := hcl none y
              simp only [List.count_append, List.count_cons] at this ⊢
              omega) ht h0 hA
          rw [e1, ok_bind]
          dsimp only
          cases hro : ra.ok with
          | true =>
            obtain ⟨rfl, rfl, o1, k1⟩ := hok hro
            unfold rehashNext at hr
            rw [if_pos hro, wr_lt _ (by rw [so.length]; exact hlt), ok_bind] at hr
            obtain ⟨w, hw⟩ := P.left v h1
            rw [if_pos rfl, hw, ok_bind, wr_lt _ hlt, ok_bind]
            have hcp := countP_set (fun s : Ptr × Option V => s.1.isSome) (none, w) hx
            simp only [Option.isSome_none, Option.isSome_some, Bool.false_eq_true, if_false, if_true] at hcp
            have hlow := so.low
            have nw : mapOwn own { old with slots := old.slots.set i (none, w), count := old.count } =
                mapOwn own { old with slots := old.slots.set i (none, none), count := old.count } := by
              unfold mapOwn
              simp only [List.append_cancel_left_eq]
              exact flatMap_set_congr (f := slotOwn own) (x := (none, w)) (y := (none, none)) rfl
            have s2 : Sim own val h { old with slots := old.slots.set i (none, w), count := old.count }
                ⟨aold.hasData, aold.keys.set i none, aold.vals, old.count⟩ := so.clear hx w rfl (fun _ _ => rfl) (by omega)
            have s3 := s2.keep P (h' := h1) (k1.sub fun y hy => by rw [nw] at hy; exact List.mem_append_left _ hy)
            rw [← so.count] at s3
            rw [← c1] at hr
            obtain ⟨old', new', h', e, a1, a2, a3, a4, a5⟩ := rehash_sim P hi left (i + 1) h1 { old with slots := old.slots.set i (none, w) } cm'
              { aold with keys := aold.keys.set i none } ra.map l r (by rw [← so.count] at *; exact s3) s1 (by
                have : mapOwn own { old with slots := old.slots.set i (none, w) } = mapOwn own { old with slots := old.slots.set i (none, w), count := old.count } := rfl
                rw [this, nw]; exact o1) hr
            exact ⟨old', new', h', e, a1, a2, a3, a4, (k1.sub fun y hy => List.mem_append_right _ hy).trans a5⟩
          | false =>
            obtain ⟨rfl, rfl, o1, k1⟩ := hfail hro
            unfold rehashNext at hr
            rw [if_neg (by simp [hro])] at hr
            cases hr
            have hset : old.slots.set i (some a, some v) = old.slots := by
              obtain ⟨g1, g2⟩ := List.getElem?_eq_some_iff.mp hx
              rw [← g2]; exact List.set_getElem_self _
            rw [if_neg (by simp), wr_lt _ hlt, ok_bind, hset]
            have sub : ∀ y ∈ mapOwn own old, y ∈ a :: (own v ++ (mapOwn own { old with slots := old.slots.set i (none, none), count := old.count } ++ l)) := by
              intro y hy
              have hc := List.count_pos_iff.mpr hy
              have := hcl none y
              apply List.count_pos_iff.mp
              simp only [List.count_append, List.count_cons] at this ⊢
              omega
            refine ⟨old, cm', h1, rfl, so.keep P (k1.sub sub), s1, c1, o1.congr fun y => ?_, k1.sub fun y hy => by simp [hy]⟩
            have := hcl none y
            simp only [List.count_append, List.count_cons] at this ⊢
            omega

theorem blank_sim (h : Heap) (a b n : Nat) : Sim own val h ⟨some a, some b, List.replicate n (none, none), 0⟩ (Map.blank stringKeys n : Map _ W) where
  arrays := ⟨rfl, rfl⟩
  data := rfl
  keys := by unfold Map.blank; simp [contentsOf]
  size := by unfold Map.blank; simp
  vals := fun i a o hi => by
    have := List.mem_of_getElem? hi
    simp at this
  strs := fun i a o hi => by
    have := List.mem_of_getElem? hi
    simp at this
  count := rfl
  low := by simp [List.countP_replicate]

/-- The abstract `grow` and this one. -/
theorem grow_sim (P : Proper vs own val Fine given) {mem : Nat → Bool} {insC : Ins' V} {insA : Ins (Option (List Byte)) W} (hi : SimIns vs own val insC insA)
    {h : Heap} {cm : HMap V} {am : Map (Option (List Byte)) W} {l : List Nat} {r : Res (Option (List Byte)) W}
    (s : Sim own val h cm am) (o : Owns h (mapOwn own cm ++ l)) (hr : Hash.grow stringKeys mem insA am h.calls = .ok r) :
    ∃ cm' h', grow vs mem insC cm h = .ok ⟨r.ok, cm', h'⟩ ∧ Sim own val h' cm' r.map ∧ h'.calls = r.calls ∧ Owns h' (mapOwn own cm' ++ l) ∧ Keep h h' l := by
  unfold Hash.grow at hr
  simp only [s.length] at hr
  unfold grow
  rcases o.malloc mem (cm.slots.length * 2) [] with ⟨a1, h1, e1, o1, k1, _, c1⟩ | ⟨a1, h1, e1, o1, k1, c1⟩
  · rcases o1.malloc mem (cm.slots.length * 2) [] with ⟨a2, h2, e2, o2, k2, _, c2⟩ | ⟨a2, h2, e2, o2, k2, c2⟩
    · -- both arrays
      rw [c1] at a2
      rw [a1, a2, if_neg (by simp)] at hr
      simp only [e1, e2, Option.isNone_some, Bool.or_self, Bool.false_eq_true, if_false]
      have c12 : h2.calls = h.calls + 2 := by omega
      rw [← c12] at hr
      cases hR : Hash.rehash stringKeys insA cm.slots.length 0 am (Map.blank stringKeys (cm.slots.length * 2)) h2.calls with
      | error e => rw [hR] at hr; cases hr
      | ok rr =>
        rw [hR, ok_bind] at hr
        have s2 : Sim own val h2 cm am := s.keep P ((k1.sub fun x hx => List.mem_append_left _ hx).trans
          (k2.sub fun x hx => List.mem_cons_of_mem _ (List.mem_append_left _ hx)))
        have hnil : (List.replicate (cm.slots.length * 2) ((none, none) : Ptr × Option V)).flatMap (slotOwn own) = [] :=
          empty_of_low (by simp [List.countP_replicate])
        obtain ⟨old', new', h3, e3, so, sn, c3, o3, k3⟩ := rehash_sim P hi cm.slots.length 0 h2 cm
          ⟨some h.calls, some h1.calls, List.replicate (cm.slots.length * 2) (none, none), 0⟩ am (Map.blank stringKeys (cm.slots.length * 2)) l rr s2
          (blank_sim _ _ _ _) (o2.congr fun y => by
            unfold mapOwn
            simp only [hnil, Option.toList_some, List.count_append, List.count_cons, List.count_nil]
            omega) hR
        rw [e3, ok_bind]
        have kk : Keep h h3 l := ((k1.sub fun x hx => List.mem_append_right _ hx).trans
          (k2.sub fun x hx => List.mem_cons_of_mem _ (List.mem_append_right _ hx))).trans k3
        cases hro : rr.ok with
        | false =>
          rw [hro, if_pos (by rfl)] at hr
          cases hr
          obtain ⟨m', h4, e4, o4, k4, c4⟩ := destroy_spec P sn o3
          simp only [Bool.not_false, if_true, e4, ok_bind]
          exact ⟨old', h4, rfl, so.keep P (k4.sub fun x hx => List.mem_append_left _ hx), by rw [c4, c3], o4,
            kk.trans (k4.sub fun x hx => List.mem_append_right _ hx)⟩
        | true =>
          rw [hro, if_neg (by simp)] at hr
          cases hr
          obtain ⟨m', h4, e4, o4, k4, c4⟩ := destroy_spec P (l := mapOwn own new' ++ l) so (o3.congr fun y => by simp only [List.count_append]; omega)
          simp only [Bool.not_true, Bool.false_eq_true, if_false, e4, ok_bind]
          exact ⟨new', h4, rfl, sn.keep P (k4.sub fun x hx => List.mem_append_left _ hx), by rw [c4, c3], o4,
            kk.trans (k4.sub fun x hx => List.mem_append_right _ hx)⟩
    · -- only the keys
      rw [c1] at a2
      rw [a1, a2, if_pos (by simp)] at hr
      cases hr
      obtain ⟨h3, e3, o3, k3, c3⟩ := o2.free
      simp only [e1, e2, Option.isNone_some, Option.isNone_none, Bool.or_true, if_true]
      refine ⟨cm, h3, ?_, ?_, by omega, o3, ?_⟩
      · unfold destroy destroyEntries freeArray
        simp only [Option.isSome_none, Bool.and_false, Bool.false_and, Bool.false_eq_true, if_false, ok_bind, e3]
      · exact s.keep P (((k1.sub fun x hx => List.mem_append_left _ hx).trans (k2.sub fun x hx => List.mem_cons_of_mem _ (List.mem_append_left _ hx))).trans
          (k3.sub fun x hx => List.mem_append_left _ hx))
      · exact ((k1.sub fun x hx => List.mem_append_right _ hx).trans (k2.sub fun x hx => List.mem_cons_of_mem _ (List.mem_append_right _ hx))).trans
          (k3.sub fun x hx => List.mem_append_right _ hx)
  · rcases o1.malloc mem (cm.slots.length * 2) [] with ⟨a2, h2, e2, o2, k2, _, c2⟩ | ⟨a2, h2, e2, o2, k2, c2⟩
    · -- only the values
      rw [a1, if_pos (by simp)] at hr
      cases hr
      obtain ⟨h3, e3, o3, k3, c3⟩ := o2.free
      simp only [e1, e2, Option.isNone_some, Option.isNone_none, Bool.or_false, if_true]
      refine ⟨cm, h3, ?_, ?_, by omega, o3, ?_⟩
      · unfold destroy destroyEntries freeArray
        simp only [Option.isSome_none, Bool.false_and, Bool.false_eq_true, if_false, ok_bind, e3]
      · exact s.keep P (((k1.sub fun x hx => List.mem_append_left _ hx).trans (k2.sub fun x hx => List.mem_append_left _ hx)).trans
          (k3.sub fun x hx => List.mem_append_left _ hx))
      · exact ((k1.sub fun x hx => List.mem_append_right _ hx).trans (k2.sub fun x hx => List.mem_append_right _ hx)).trans
          (k3.sub fun x hx => List.mem_append_right _ hx)
    · rw [a1, if_pos (by simp)] at hr
      cases hr
      simp only [e1, e2, Option.isNone_none, Bool.or_true, if_true]
      refine ⟨cm, h2, ?_, ?_, by omega, o2, ?_⟩
      · unfold destroy destroyEntries freeArray
        simp only [Option.isSome_none, Bool.false_and, Bool.false_eq_true, if_false, ok_bind]
      · exact s.keep P ((k1.sub fun x hx => List.mem_append_left _ hx).trans (k2.sub fun x hx => List.mem_append_left _ hx))
      · exact (k1.sub fun x hx => List.mem_append_right _ hx).trans (k2.sub fun x hx => List.mem_append_right _ hx)

theorem insertLoop_sim (P : Proper vs own val Fine given) {mem : Nat → Bool} {insC : Ins' V} {insA : Ins (Option (List Byte)) W} (hi : SimIns vs own val insC insA)
    (fuel : Nat) : SimIns vs own val (fun h m k v => match k with | none => .error .invalid | some a => insertLoop vs mem insC fuel h m a v)
      (Hash.insertLoop stringKeys mem insA fuel) := by
  induction fuel with
  | zero => intro h cm am a v l t r s o ht h0 hr; cases hr
  | succ fuel ih =>
    intro h cm am a v l t r s o ht h0 hr
    unfold Hash.insertLoop at hr
    dsimp only
    unfold insertLoop
    have hload : load h a = .ok t := by unfold load; rw [ht]
    rw [hload, ok_bind, stringHash_eq h0, ok_bind, probe_eq o s h0]
    cases hp : am.probe stringKeys (some (chars t)) maxProbe 0 none with
    | error e => rw [hp] at hr; cases hr
    | ok x =>
      rw [hp, ok_bind] at hr
      rw [ok_bind]
      cases x with
      | some pe =>
        obtain ⟨p, e⟩ := pe
        dsimp only at hr ⊢
        cases hput : am.put p e (some (chars t)) (val h v) with
        | error e => rw [hput] at hr; cases hr
        | ok am' =>
          rw [hput, ok_bind] at hr
          cases hr
          obtain ⟨cm', h', e1, s1, o1, k1, c1⟩ := s.put P o ht h0 (probe_spec _ _ _ (fun q hq => by cases hq) hp) hput
          exact ⟨cm', none, vs.left (some v), h', e1, s1, c1, fun _ => ⟨rfl, rfl, o1, k1⟩, fun e => by cases e⟩
      | none =>
        dsimp only at hr ⊢
        cases hg : Hash.grow stringKeys mem insA am h.calls with
        | error e => rw [hg] at hr; cases hr
        | ok g =>
          rw [hg, ok_bind] at hr
          obtain ⟨cm', h', e1, s1, c1, o1, k1⟩ := grow_sim P hi s o hg
          rw [e1, ok_bind]
          dsimp only
          cases hgo : g.ok with
          | false =>
            rw [hgo, if_pos (by rfl)] at hr
            cases hr
            rw [if_pos (by rfl)]
            exact ⟨cm', some a, some v, h', rfl, s1, c1, (fun e => by cases e), fun _ => ⟨rfl, rfl, o1, k1⟩⟩
          | true =>
            rw [hgo, if_neg (by simp), ← c1, ← P.val v h h' (k1.sub fun x hx => by simp [hx])] at hr
            rw [if_neg (by simp)]
            obtain ⟨cm2, key', val', h2, e2, s2, c2, hok, hfail⟩ := ih h' cm' g.map a v l t r s1 o1 (by rw [k1 a (by simp)]; exact ht) h0 hr
            exact ⟨cm2, key', val', h2, e2, s2, c2,
              fun e => ⟨(hok e).1, (hok e).2.1, (hok e).2.2.1, (k1.sub fun x hx => by simp [hx]).trans (hok e).2.2.2⟩,
              fun e => ⟨(hfail e).1, (hfail e).2.1, (hfail e).2.2.1, k1.trans (hfail e).2.2.2⟩⟩

theorem insertMove_sim (P : Proper vs own val Fine given) (mem : Nat → Bool) (fuel : Nat) :
    SimIns vs own val (insertMove vs mem fuel) (Hash.insertMove stringKeys mem fuel) := by
  induction fuel with
  | zero => intro h cm am a v l t r s o ht h0 hr; cases hr
  | succ fuel ih =>
    intro h cm am a v l t r s o ht h0 hr
    unfold Hash.insertMove at hr
    unfold insertMove
    rw [s.check]
    cases hc : am.check with
    | error e => rw [hc] at hr; cases hr
    | ok _ =>
      rw [hc, ok_bind, if_neg (by simp)] at hr
      rw [ok_bind]
      have main : ∀ g, Hash.growIfFull stringKeys mem (Hash.insertMove stringKeys mem fuel) am h.calls = .ok g →
          ∃ cm' h', growIfFull vs mem (insertMove vs mem fuel) cm h = .ok ⟨g.ok, cm', h'⟩ ∧ Sim own val h' cm' g.map ∧ h'.calls = g.calls ∧
            Owns h' (mapOwn own cm' ++ (a :: (own v ++ l))) ∧ Keep h h' (a :: (own v ++ l)) := by
        intro g hg
        unfold Hash.growIfFull at hg
        unfold growIfFull
        rw [s.length, s.count] at hg
        split at hg
        · rename_i hf
          rw [if_pos hf]
          exact grow_sim P ih s o hg
        · rename_i hf
          rw [if_neg hf]
          cases hg
          exact ⟨cm, h, rfl, s, rfl, o, Keep.refl _ _⟩
      cases hg : Hash.growIfFull stringKeys mem (Hash.insertMove stringKeys mem fuel) am h.calls with
      | error e => rw [hg] at hr; cases hr
      | ok g =>
        rw [hg, ok_bind] at hr
        obtain ⟨cm', h', e1, s1, c1, o1, k1⟩ := main g hg
        dsimp only
        rw [e1, ok_bind]
        dsimp only
        cases hgo : g.ok with
        | false =>
          rw [hgo, if_pos (by rfl)] at hr
          cases hr
          rw [if_pos (by rfl)]
          exact ⟨cm', some a, some v, h', rfl, s1, c1, (fun e => by cases e), fun _ => ⟨rfl, rfl, o1, k1⟩⟩
        | true =>
          rw [hgo, if_neg (by simp), ← c1, ← P.val v h h' (k1.sub fun x hx => by simp [hx])] at hr
          rw [if_neg (by simp)]
          obtain ⟨cm2, key', val', h2, e2, s2, c2, hok, hfail⟩ := insertLoop_sim P ih (fuel + 1) h' cm' g.map a v l t r s1 o1
            (by rw [k1 a (by simp)]; exact ht) h0 hr
          exact ⟨cm2, key', val', h2, e2, s2, c2,
            fun e => ⟨(hok e).1, (hok e).2.1, (hok e).2.2.1, (k1.sub fun x hx => by simp [hx]).trans (hok e).2.2.2⟩,
            fun e => ⟨(hfail e).1, (hfail e).2.1, (hfail e).2.2.1, k1.trans (hfail e).2.2.2⟩⟩

end Tm.Hash.Owned
