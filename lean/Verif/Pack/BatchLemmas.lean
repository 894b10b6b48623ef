import Verif.Pack.GuilLemmas

/-! # Batches and whole histories of the guillotine functions -/

namespace Tm.Pack

open Tm

theorem Found.le {fit : Fit} {flip : Bool} {w h : Int} {all : List Rect} {c : Choice} (hf : Found fit flip w h all c) : c.score ≤ intMax := by
  cases hf with
  | best hb =>
    cases hb with
    | none h _ => omega
    | some r _ _ _ h => omega
  | exact r _ h _ => rw [h]; decide

theorem Found.ge {fit : Fit} {flip : Bool} {w h : Int} {all : List Rect} {c : Choice} (hf : Found fit flip w h all c) : intMin ≤ c.score := by
  cases hf with
  | best hb =>
    cases hb with
    | none h _ => rw [h]; decide
    | some r _ _ _ _ h => omega
  | exact r _ h _ => rw [h]

/-- No place is better than the one that was found. -/
theorem Found.least {fit : Fit} {flip : Bool} {w h : Int} {all : List Rect} {c : Choice} (hf : Found fit flip w h all c) {r : Rect} (hr : r ∈ all) :
    (ExactIn flip w h r → c.score = intMin) ∧ (RoomIn flip w h r → c.score = intMin ∨ c.score ≤ leftoverEither fit w h r) := by
  cases hf with
  | best hb =>
    cases hb with
    | none h1 h2 =>
      refine ⟨fun he => absurd ?_ (h2 r hr), fun he => absurd he (h2 r hr)⟩
      rcases he with he | he
      · exact .inl ⟨Int.le_of_eq he.1, Int.le_of_eq he.2⟩
      · exact .inr ⟨he.1, Int.le_of_eq he.2.1, Int.le_of_eq he.2.2⟩
    | some r' _ _ _ _ _ h1 h2 _ => exact ⟨fun he => absurd he (h2 r hr), fun he => .inr (h1 r hr he)⟩
  | exact r' _ h _ => exact ⟨fun _ => h, fun _ => .inl h⟩

theorem bestPlace_of_found {fit : Fit} {flip : Bool} {free : List Rect} {dims : List Dim} {d : Dim} {c : Choice} {f : Rect} {res : Placed}
    (hf : Found fit flip d.width d.height free c) (hc : c.score ≠ intMax) (hix : free[c.index]? = some f) (hsu : Suits flip d.width d.height c f)
    (hres : Sized flip d.width d.height res) (hfl : res.flipped = c.flipped) (hl : res.rect.left = f.left) (ht : res.rect.top = f.top)
    (hle : ∀ d' ∈ dims, ∃ c', Found fit flip d'.width d'.height free c' ∧ c.score ≤ c'.score) : BestPlace fit flip free dims d res := by
  refine ⟨f, mem_of_getElem? hix, hl, ht, ?_⟩
  rw [← and_assoc]
  constructor
  · unfold Suits at hsu
    unfold Sized at hres
    rw [hfl] at hres
    cases h : c.flipped with
    | true =>
      rw [h] at hsu hres
      exact ⟨by rw [hres.2.1]; exact hsu.2.1, by rw [hres.2.2]; exact hsu.2.2⟩
    | false =>
      rw [h] at hsu hres
      exact ⟨by rw [hres.1]; exact hsu.1, by rw [hres.2]; exact hsu.2⟩
  · cases hf with
    | best hb =>
      right
      cases hb with
      | none h _ => exact absurd h hc
      | some r' h1 h2 h3 h4 h5 _ _ _ =>
        rw [hix] at h1
        injection h1 with h1
        subst h1
        intro d' hd' r hr
        obtain ⟨c', h6, h7⟩ := hle d' hd'
        obtain ⟨h8, h9⟩ := h6.least hr
        refine ⟨fun he => ?_, fun he => ?_⟩
        · have := h8 he
          omega
        · rcases h9 he with h | h
          · omega
          · omega
    | exact r' h1 h2 h3 =>
      left
      rw [hix] at h1
      injection h1 with h1
      subst h1
      cases h : c.flipped with
      | true =>
        rw [h] at h3
        exact .inr h3
      | false =>
        rw [h] at h3
        exact .inl h3

theorem bestDim_ok {W H : Int} {p : Pack} (hp : Inv W H p) (fit : Fit) (flip : Bool) (all : List Dim)
    (hpos : ∀ d ∈ all, 1 ≤ d.width ∧ 1 ≤ d.height) :
    ∀ (ds seen : List Dim) (best : Choice × Nat), all = seen ++ ds →
      (∀ d ∈ seen, ∃ c, Found fit flip d.width d.height p.free.live c ∧ best.1.score ≤ c.score) →
      (best.1.score = intMax ∨
        (best.1.score < intMax ∧ ∃ d, all[best.2]? = some d ∧ choice p d.width d.height fit flip = .ok best.1 ∧
          Found fit flip d.width d.height p.free.live best.1)) →
      ∃ b, bestDim p fit flip ds seen.length best = .ok b ∧
        (∀ d ∈ all, ∃ c, Found fit flip d.width d.height p.free.live c ∧ b.1.score ≤ c.score) ∧
        (b.1.score = intMax ∨
          (b.1.score < intMax ∧ ∃ d, all[b.2]? = some d ∧ choice p d.width d.height fit flip = .ok b.1 ∧
            Found fit flip d.width d.height p.free.live b.1)) := by
  intro ds
  induction ds with
  | nil =>
    intro seen best ha hl hb
    rw [List.append_nil] at ha
    subst ha
    exact ⟨best, rfl, hl, hb⟩
  | cons d ds ih =>
    intro seen best ha hl hb
    have hix : all[seen.length]? = some d := by rw [ha]; simp
    have hmem : d ∈ all := by rw [ha]; simp
    have hap : all = (seen ++ [d]) ++ ds := by rw [ha]; simp
    have hlen : (seen ++ [d]).length = seen.length + 1 := by simp
    obtain ⟨c, ec, hf⟩ := choice_found p (hpos d hmem).1 (hpos d hmem).2 fit flip hp.small
    unfold bestDim
    rw [ec, ok_bind]
    have hle := hf.le
    have hble : best.1.score ≤ intMax := by
      rcases hb with h | h <;> omega
    split
    · rename_i hlt
      split
      · rename_i hmin
        refine ⟨_, rfl, fun d' hd' => ?_, .inr ⟨by dsimp only; omega, d, hix, ec, hf⟩⟩
        obtain ⟨c', ec', hf'⟩ := choice_found p (hpos d' hd').1 (hpos d' hd').2 fit flip hp.small
        exact ⟨c', hf', by rw [hmin]; exact hf'.ge⟩
      · rw [← hlen]
        refine ih _ _ hap ?_ (.inr ⟨by dsimp only; omega, d, hix, ec, hf⟩)
        intro d' hd'
        rcases List.mem_append.mp hd' with h | h
        · obtain ⟨c', h1, h2⟩ := hl d' h
          exact ⟨c', h1, by dsimp only; omega⟩
        · rw [List.mem_singleton] at h
          subst h
          exact ⟨c, hf, Int.le_refl _⟩
    · rename_i hlt
      rw [← hlen]
      refine ih _ _ hap ?_ hb
      intro d' hd'
      rcases List.mem_append.mp hd' with h | h
      · exact hl d' h
      · rw [List.mem_singleton] at h
        subst h
        exact ⟨c, hf, by omega⟩

theorem swap_ok {ds : List Dim} {i j : Nat} {a b : Dim} (ha : ds[i]? = some a) (hb : ds[j]? = some b) :
    swap ds i j = .ok ((ds.set i b).set j a) := by
  unfold swap rd
  rw [ha, hb]
  rfl

theorem set_set_perm {ds : List Dim} {i j : Nat} {a b : Dim} (ha : ds[i]? = some a) (hb : ds[j]? = some b) :
    ((ds.set i b).set j a).Perm ds := by
  obtain ⟨hi, rfl⟩ := List.getElem?_eq_some_iff.mp ha
  obtain ⟨hj, rfl⟩ := List.getElem?_eq_some_iff.mp hb
  exact List.set_set_perm hi hj

/-- One result of a batch belongs to one of the dimensions. -/
def Answers (flip : Bool) (x : Placed × Nat) (d : Dim) : Prop := x.1.placed = true ∧ x.2 = d.user ∧ Sized flip d.width d.height x.1

theorem insertBatch_ok {W H : Int} (fit : Fit) (s : Split) (flip m : Bool) : ∀ (n : Nat) (p : Pack) (ds : List Dim), Inv W H p → n ≤ ds.length →
    (∀ d ∈ ds, 1 ≤ d.width ∧ 1 ≤ d.height) → Room n p →
    ∃ p' ds' rs, insertBatch fit s flip m n p ds = .ok (p', ds', rs) ∧ Inv W H p' ∧ ds'.Perm ds ∧ ds'.drop n = ds.drop n ∧ rs.length ≤ n ∧
      p'.used.live = p.used.live ++ rs.map (·.1.rect) ∧ p'.dyn = p.dyn ∧ (p.dyn = false → p'.free.cap = p.free.cap ∧ p'.used.cap = p.used.cap) ∧
      (p'.width = p.width ∧ p'.height = p.height) ∧
      List.Forall₂ (Answers flip) rs ((ds'.take n).drop (n - rs.length)).reverse ∧
      Greedy fit s flip m p (ds.take n) p' rs (ds'.take (n - rs.length)) := by
  intro n
  induction n with
  | zero =>
    intro p ds hp _ _ _
    exact ⟨p, ds, [], rfl, hp, .refl _, rfl, Nat.le_refl _, by simp, rfl, fun _ => ⟨rfl, rfl⟩, ⟨rfl, rfl⟩, by simp, by simpa using .stop (by simp)⟩
  | succ n ih =>
    intro p ds hp hlen hpos hroom
    obtain ⟨b, eb, hle, hb⟩ := bestDim_ok hp fit flip (ds.take (n + 1)) (fun d hd => hpos d (List.mem_of_mem_take hd)) (ds.take (n + 1)) []
      (⟨0, intMax, false⟩, 0) rfl (by simp) (.inl rfl)
    obtain ⟨best, i⟩ := b
    rw [List.length_nil] at eb
    unfold insertBatch
    rw [eb, ok_bind]
    dsimp only at hb hle ⊢
    rcases hb with h1 | ⟨h1, d, h2, h2', h3⟩
    · rw [if_pos h1]
      refine ⟨p, ds, [], rfl, hp, .refl _, rfl, Nat.zero_le _, by simp, rfl, fun _ => ⟨rfl, rfl⟩, ⟨rfl, rfl⟩, by simp, ?_⟩
      refine .stop fun d hd => ?_
      obtain ⟨c, h4, h5⟩ := hle d hd
      have := h4.le
      rcases h4.cases with ⟨_, h⟩ | ⟨h, _⟩
      · exact h
      · omega
    · have h1' : best.score ≠ intMax := by omega
      rw [if_neg h1']
      have hdi : ds[i]? = some d := by
        rw [List.getElem?_take] at h2
        split at h2
        · exact h2
        · cases h2
      have hin : i ≤ n := by
        rw [List.getElem?_take] at h2
        split at h2
        · omega
        · cases h2
      have hdm : d ∈ ds := List.mem_of_getElem? hdi
      rw [show rd ds i = .ok d from by unfold rd; rw [hdi], ok_bind]
      rcases h3.cases with ⟨h, _⟩ | ⟨_, f, h4, h5⟩
      · exact absurd h h1'
      obtain ⟨p1, res, e1, e2, e3, e4, e5, e6⟩ := insert_ok hp (hpos d hdm).1 (hpos d hdm).2 h1' h4 h5 (by
        rcases hroom with h | h
        · exact .inl h
        · right; omega) s
      have einsert : insertChoice p d.width d.height fit s flip = .ok (p1, res) := by
        unfold insertChoice
        rw [h2', ok_bind, if_pos h1', e1]
      rw [e1, ok_bind]
      dsimp only
      obtain ⟨p2, f1, f2, f3, f4, f5, f6⟩ : ∃ p2, (if m then merge p1 else .ok p1 : C Pack) = .ok p2 ∧ Inv W H p2 ∧ p2.used = p1.used ∧
          p2.dyn = p1.dyn ∧ p2.free.cap = p1.free.cap ∧ p2.width = p1.width ∧ p2.height = p1.height := by
        cases m with
        | true => exact merge_ok e2
        | false => exact ⟨p1, rfl, e2, rfl, rfl, rfl, rfl, rfl⟩
      obtain ⟨dn, hdn⟩ : ∃ dn, ds[n]? = some dn := ⟨_, List.getElem?_eq_getElem (by omega)⟩
      obtain ⟨ds1, g1, g2, g3, g4⟩ : ∃ ds1, (if i ≠ n then swap ds i n else .ok ds : C (List Dim)) = .ok ds1 ∧ ds1.Perm ds ∧ ds1[n]? = some d ∧
          ds1.drop (n + 1) = ds.drop (n + 1) := by
        by_cases hne : i ≠ n
        · rw [if_pos hne, swap_ok hdi hdn]
          refine ⟨_, rfl, set_set_perm hdi hdn, ?_, ?_⟩
          · rw [List.getElem?_set_self (by rw [List.length_set]; omega)]
          · rw [List.drop_set_of_lt (by omega), List.drop_set_of_lt (by omega)]
        · rw [if_neg hne]
          have : i = n := by omega
          subst this
          exact ⟨ds, rfl, .refl _, hdi, rfl⟩
      have hlen1 := g2.length_eq
      have hroom2 : Room n p2 := by
        rcases hroom with h | h
        · left
          rw [f4, e3.dyn]; exact h
        · cases hd : p.dyn with
          | true =>
            left
            rw [f4, e3.dyn]; exact hd
          | false =>
            right
            rw [f5, f3, e3.capF hd, e3.capU hd, e3.used]
            simp only [List.length_append, List.length_singleton]
            omega
      obtain ⟨p', ds', rs, k1, k2, k3, k4, k5, k6, k7, k8, k8', k9, k10⟩ := ih p2 ds1 f2 (by omega) (fun x hx => hpos x (g2.mem_iff.mp hx)) hroom2
      have fin : (do
          let p ← if m then merge p1 else .ok p1
          let ds ← if i ≠ n then swap ds i n else .ok ds
          let (p, ds, rs) ← insertBatch fit s flip m n p ds
          .ok (p, ds, (res, d.user) :: rs) : C (Pack × List Dim × List (Placed × Nat))) = .ok (p', ds', (res, d.user) :: rs) := by
        cases m with
        | true =>
          rw [if_pos rfl] at f1 ⊢
          rw [f1, ok_bind]
          dsimp only
          by_cases hne : i ≠ n
          · rw [if_pos hne] at g1 ⊢
            rw [g1, ok_bind, k1]; rfl
          · rw [if_neg hne] at g1 ⊢
            injection g1 with g1
            rw [ok_bind, g1, k1]; rfl
        | false =>
          rw [if_neg (by decide)] at f1 ⊢
          injection f1 with f1
          subst f1
          rw [ok_bind]
          dsimp only
          by_cases hne : i ≠ n
          · rw [if_pos hne] at g1 ⊢
            rw [g1, ok_bind, k1]; rfl
          · rw [if_neg hne] at g1 ⊢
            injection g1 with g1
            rw [ok_bind, g1, k1]; rfl
      have hdn' : ds'[n]? = some d := by
        have : (ds'.drop n)[0]? = (ds1.drop n)[0]? := by rw [k4]
        rw [List.getElem?_drop, List.getElem?_drop] at this
        simpa [g3] using this
      have hperm : (ds.take (n + 1)).Perm (d :: ds1.take n) := by
        have h1 : ds1.take (n + 1) = ds1.take n ++ [d] := by rw [List.take_add_one, g3]; rfl
        have h2 : (ds1.take (n + 1) ++ ds1.drop (n + 1)).Perm (ds.take (n + 1) ++ ds.drop (n + 1)) := by
          rw [List.take_append_drop, List.take_append_drop]; exact g2
        rw [g4] at h2
        have h3 := (List.perm_append_right_iff _).mp h2
        refine h3.symm.trans ?_
        rw [h1]
        exact List.perm_append_comm
      refine ⟨p', ds', (res, d.user) :: rs, fin, k2, k3.trans g2, ?_, by simpa using k5, ?_, ?_, ?_, ?_, ?_, ?_⟩
      · rw [← g4, show n + 1 = 1 + n from by omega, Nat.add_comm 1 n, ← List.drop_drop, ← List.drop_drop, k4]
      · rw [k6, f3, e3.used]
        simp
      · rw [k7, f4, e3.dyn]
      · intro hd
        have h1 := k8 (by rw [f4, e3.dyn]; exact hd)
        rw [f5, f3, e3.capF hd, e3.capU hd] at h1
        exact h1
      · rw [k8'.1, k8'.2, f6.1, f6.2]
        exact e3.dims
      · have ht : ds'.take (n + 1) = ds'.take n ++ [d] := by
          rw [List.take_add_one, hdn']; rfl
        rw [List.length_cons, show n + 1 - (rs.length + 1) = n - rs.length from by omega, ht, List.drop_append_of_le_length, List.reverse_append]
        · refine .cons ⟨e3.placed, rfl, e3.size⟩ k9
        · rw [List.length_take, k3.length_eq]
          omega
      · rw [List.length_cons, show n + 1 - (rs.length + 1) = n - rs.length from by omega]
        refine .step hperm einsert e3.placed (bestPlace_of_found h3 h1' h4 h5 e3.size e4 e5 e6.1 hle) ?_ k10
        cases m with
        | true => exact f1
        | false =>
          rw [if_neg (by decide)] at f1 ⊢
          injection f1 with f1
          exact f1.symm

/-! ### Histories -/

theorem step_ok' {W H : Int} {p : Pack} (hp : Inv W H p) (op : Op) (hpos : op.Positive) (n : Nat) (hroom : Room (op.size + n) p)
    (hsz : op ≠ .clear ∨ (p.width = W ∧ p.height = H)) :
    ∃ p', step p op = .ok p' ∧ Inv W H p' ∧ Room n p' ∧ p'.dyn = p.dyn ∧
      (p'.width = p.width ∧ p'.height = p.height) ∧ (p.dyn = false → p'.free.cap = p.free.cap ∧ p'.used.cap = p.used.cap) := by
  cases op with
  | insert w h fit s flip =>
    obtain ⟨p', res, e1, e2, e3⟩ := insertChoice_ok hp hpos.1 hpos.2 fit s flip (by
      rcases hroom with h | h
      · exact .inl h
      · have h' : p.used.live.length + (1 + n) ≤ p.used.cap ∧ p.used.live.length + (1 + n) + 1 ≤ p.free.cap := h
        exact .inr (by omega))
    unfold step
    dsimp only
    rw [e1, ok_bind]
    refine ⟨p', rfl, e2, ?_⟩
    replace hroom : Room (1 + n) p := hroom
    rcases e3 with ⟨rfl, _⟩ | ⟨e3, _⟩
    · refine ⟨?_, rfl, ⟨rfl, rfl⟩, fun _ => ⟨rfl, rfl⟩⟩
      rcases hroom with h | h
      · exact .inl h
      · exact .inr (by omega)
    · refine ⟨?_, e3.dyn, e3.dims, fun h => ⟨e3.capF h, e3.capU h⟩⟩
      cases hd : p.dyn with
      | true => exact .inl (e3.dyn.trans hd)
      | false =>
        rcases hroom with h | h
        · rw [hd] at h; cases h
        · right
          rw [e3.capF hd, e3.capU hd, e3.used]
          simp only [List.length_append, List.length_singleton]
          omega
  | batch dims fit s flip m =>
    unfold Op.size at hroom
    dsimp only at hroom
    obtain ⟨p', ds', rs, k1, k2, k3, k4, k5, k6, k7, k8, k8', k9, k10⟩ := insertBatch_ok fit s flip m dims.length p dims hp (Nat.le_refl _) hpos (by
      rcases hroom with h | h
      · exact .inl h
      · exact .inr (by omega))
    unfold step
    dsimp only
    rw [k1, ok_bind]
    refine ⟨p', rfl, k2, ?_, k7, k8', k8⟩
    cases hd : p.dyn with
    | true => exact .inl (k7.trans hd)
    | false =>
      rcases hroom with h | h
      · rw [hd] at h; cases h
      · right
        rw [(k8 hd).1, (k8 hd).2, k6]
        simp only [List.length_append, List.length_map]
        omega
  | merge =>
    obtain ⟨p', e1, e2, e3, e4, e5, e6⟩ := merge_ok hp
    refine ⟨p', e1, e2, ?_, e4, e6, fun _ => ⟨e5, by rw [e3]⟩⟩
    unfold Room at *
    rw [e3, e4, e5]
    unfold Op.size at hroom
    dsimp only at hroom
    rcases hroom with h | h
    · exact .inl h
    · exact .inr (by omega)
  | clear =>
    obtain ⟨e1, e2, e3, e4, e5, e6⟩ := reset_ok (p := p) hp.cap hp.size
    have hsz' : p.width = W ∧ p.height = H := by
      rcases hsz with h | h
      · exact absurd rfl h
      · exact h
    rw [← hsz'.1, ← hsz'.2] at e1 e2 e3 e4 e5 e6
    refine ⟨clear p, rfl, by rw [← hsz'.1, ← hsz'.2]; exact e1, ?_, e4, ⟨rfl, rfl⟩, fun _ => ⟨e5, e6⟩⟩
    unfold Room at *
    unfold clear
    rw [e2, e4, e5, e6]
    unfold Op.size at hroom
    dsimp only at hroom
    rcases hroom with h | h
    · exact .inl h
    · right
      simp only [List.length_nil]
      omega

theorem step_ok {W H : Int} {p : Pack} (hp : Inv W H p) (op : Op) (hpos : op.Positive) (n : Nat) (hroom : Room (op.size + n) p)
    (hsz : op ≠ .clear ∨ (p.width = W ∧ p.height = H)) :
    ∃ p', step p op = .ok p' ∧ Inv W H p' ∧ Room n p' ∧ p'.dyn = p.dyn ∧ (p'.width = p.width ∧ p'.height = p.height) := by
  obtain ⟨p', e1, e2, e3, e4, e5, _⟩ := step_ok' hp op hpos n hroom hsz
  exact ⟨p', e1, e2, e3, e4, e5⟩

theorem run_ok {W H : Int} : ∀ (ops : List Op) (p : Pack), Inv W H p → (∀ op ∈ ops, op.Positive) → 
    ((∀ op ∈ ops, op ≠ .clear) ∨ (p.width = W ∧ p.height = H)) → ∀ n, Room ((ops.map Op.size).sum + n) p →
    ∃ p', run p ops = .ok p' ∧ Inv W H p' ∧ Room n p' ∧ p'.dyn = p.dyn := by
  intro ops
  induction ops with
  | nil =>
    intro p hp _ _ n hroom
    exact ⟨p, rfl, hp, by simpa using hroom, rfl⟩
  | cons op ops ih =>
    intro p hp hpos hsz n hroom
    rw [List.map_cons, List.sum_cons, Nat.add_assoc] at hroom
    obtain ⟨p1, e1, e2, e3, e4, e5⟩ := step_ok hp op (hpos op (by simp)) _ hroom (by
      rcases hsz with h | h
      · exact .inl (h op (by simp))
      · exact .inr h)
    obtain ⟨p2, f1, f2, f3, f4⟩ := ih p1 e2 (fun o ho => hpos o (by simp [ho])) (by
      rcases hsz with h | h
      · exact .inl fun o ho => h o (by simp [ho])
      · exact .inr ⟨e5.1.trans h.1, e5.2.trans h.2⟩) n e3
    unfold run
    rw [e1, ok_bind]
    exact ⟨p2, f1, f2, f3, f4.trans e4⟩

end Tm.Pack
