import Verif.Async.MultiLemmas

/-! # Lemmas about waiting for several works: each procedure is called once, and nothing fails -/

namespace Tm.Async

/-- What holds of every work: its procedure is called at most once, not before the work leaves the queues; a work that was never
pushed waits for that, or was run by the main thread. -/
structure WorkSane (w : Work) : Prop where
  once : w.runs ≤ 1
  early : (w.stage = .deferred ∨ w.stage = .parked ∨ w.stage = .queued ∨ w.stage = .mine) → w.runs = 0
  home : w.placed = false → w.stage = .deferred ∨ (w.stage = .over ∧ w.signaled = true)

/-- A pool of `n` slots, all of which are sane. -/
structure Sane (n : Nat) (p : Pool) : Prop where
  len : p.works.length = n
  all : ∀ w ∈ p.works, WorkSane w

/-- Something other threads cannot change. -/
def Stable (P : Work → Prop) : Prop := ∀ c w, P w → P (w.apply c)

/-- The work in a slot. -/
def At (p : Pool) (s : Nat) (P : Work → Prop) : Prop := ∀ w, p.works[s]? = some w → P w

/-- Only other threads, and the main thread in the slots of `S`, did something. -/
def Frame (S : Nat → Prop) (p q : Pool) : Prop := ∀ P, Stable P → ∀ j, ¬ S j → At p j P → At q j P

theorem Frame.refl (S : Nat → Prop) (p : Pool) : Frame S p p := fun _ _ _ _ h => h

theorem Frame.trans {S : Nat → Prop} {p q r : Pool} (h : Frame S p q) (h' : Frame S q r) : Frame S p r :=
  fun P hP j hj ha => h' P hP j hj (h P hP j hj ha)

theorem Frame.mono {S T : Nat → Prop} {p q : Pool} (h : Frame S p q) (hs : ∀ j, S j → T j) : Frame T p q :=
  fun P hP j hj => h P hP j fun hs' => hj (hs j hs')

def Nobody : Nat → Prop := fun _ => False

def Idle (w : Work) : Prop := w.placed = false ∧ w.stage = .deferred

def Fresh (w : Work) : Prop := w.placed = false → w.stage = .deferred

theorem idle_stable : Stable Idle := by
  rintro c w ⟨h1, h2⟩
  cases c <;> simp [Work.apply, Idle, h1, h2]

theorem apply_placed {c : Change} {w : Work} : (w.apply c).placed = w.placed := by
  cases c <;> simp only [Work.apply] <;> split <;> rfl

theorem fresh_stable : Stable Fresh := by
  intro c w h hp
  rw [apply_placed] at hp
  exact (idle_stable c w ⟨hp, h hp⟩).2

theorem placed_stable : Stable fun w => w.placed = true := fun _ _ h => apply_placed.trans h

theorem waiting_stable : Stable fun w => w.stage = .deferred ∨ w.stage = .mine := by
  rintro c w (h | h) <;> cases c <;> simp [Work.apply, h]

theorem sane_stable : Stable WorkSane := by
  rintro c w ⟨h1, h2, h3⟩
  cases c <;> simp only [Work.apply] <;> split <;> refine ⟨?_, ?_, ?_⟩ <;> simp_all

theorem tick_frame (σ : Nat → Turn) (p : Pool) : Frame Nobody p (p.tick σ) := by
  intro P hP j _ ha w hw
  have hlt : j < p.works.length := by
    rw [← tick_length σ p]
    exact (List.getElem?_eq_some_iff.1 hw).1
  obtain ⟨w', e, hw'⟩ := tick_at hP (σ := σ) (List.getElem?_eq_getElem hlt) (ha _ (List.getElem?_eq_getElem hlt))
  rw [hw] at e
  injection e with e
  exact e ▸ hw'

theorem tick_sane {n : Nat} {σ : Nat → Turn} {p : Pool} (h : Sane n p) : Sane n (p.tick σ) := ⟨(tick_length σ p).trans h.len, tick_all sane_stable h.all⟩

theorem set_sane {n : Nat} {p : Pool} {i : Nat} {w : Work} (h : Sane n p) (hw : WorkSane w) : Sane n { p with works := p.works.set i w } := by
  refine ⟨by dsimp only; rw [List.length_set]; exact h.len, ?_⟩
  intro x hx
  rcases List.mem_or_eq_of_mem_set hx with hx | rfl
  · exact h.all x hx
  · exact hw

theorem set_frame (p : Pool) (i : Nat) (w : Work) : Frame (· = i) p { p with works := p.works.set i w } := by
  intro P _ j hj ha x hx
  dsimp only at hx
  rw [List.getElem?_set_ne (Ne.symm hj)] at hx
  exact ha x hx

theorem set_at {p : Pool} {i : Nat} {w : Work} {P : Work → Prop} (hw : P w) : At { p with works := p.works.set i w } i P := by
  intro x hx
  dsimp only at hx
  have hlt := (List.getElem?_eq_some_iff.1 hx).1
  rw [List.length_set] at hlt
  rw [List.getElem?_set_self hlt] at hx
  injection hx with hx
  exact hx ▸ hw

theorem rd_in {α : Type} {l : List α} {i : Nat} (h : i < l.length) (F : Fault → Prop) : Post (rd l i) (fun a => l[i]? = some a) F := by
  unfold rd
  rw [List.getElem?_eq_getElem h]
  exact rfl

theorem rd_or {α : Type} {l : List α} {i : Nat} {F : Fault → Prop} (h : i < l.length ∨ F .oob) : Post (rd l i) (fun a => l[i]? = some a) F := by
  unfold rd
  cases e : l[i]? with
  | some a => exact rfl
  | none =>
    rcases h with h | h
    · rw [List.getElem?_eq_getElem h] at e
      cases e
    · exact h

theorem assert_in {b : Bool} (h : b = true) (F : Fault → Prop) : Post (assert b) (fun _ => True) F := by
  subst h
  exact trivial

section ops

variable {n : Nat} {σ : Nat → Turn} {p : Pool} {s : Nat} {F : Fault → Prop}

theorem look_sane (h : Sane n p) (hs : s < n) :
    Post (p.look σ s) (fun r => Sane n r.2 ∧ Frame Nobody p r.2 ∧ r.2.works[s]? = some r.1 ∧ WorkSane r.1) F := by
  refine (rd_in (by rw [(tick_sane (σ := σ) h).len]; exact hs) F).bind fun w hw => ?_
  exact ⟨tick_sane h, tick_frame σ p, hw, (tick_sane h).all w (List.mem_of_getElem? hw)⟩

theorem store_sane (h : Sane n p) (hs : s < n) {P : Work → Prop} (hP : Stable P) (ha : At p s P) {f : Work → Work} (hf : ∀ w, P w → WorkSane w → WorkSane (f w)) :
    Post (p.store σ s f) (fun q => Sane n q ∧ Frame (· = s) p q ∧ At q s fun w => ∃ w', P w' ∧ w = f w') F := by
  refine (rd_in (by rw [(tick_sane (σ := σ) h).len]; exact hs) F).bind fun w hw => ?_
  have hPw := tick_frame σ p P hP s (fun h => h) ha w hw
  refine ⟨set_sane (tick_sane h) (hf w hPw ((tick_sane h).all w (List.mem_of_getElem? hw))), ?_, set_at ⟨w, hPw, rfl⟩⟩
  exact ((tick_frame σ p).mono fun _ h => h.elim).trans (set_frame _ _ _)

theorem execute_sane (h : Sane n p) (hs : s < n) (ha : At p s fun w => w.stage = .deferred ∨ w.stage = .mine) :
    Post (p.execute σ s) (fun q => Sane n q ∧ Frame (· = s) p q) F := by
  refine (store_sane h hs waiting_stable ha ?_).imp fun q hq => ⟨hq.1, hq.2.1⟩
  intro w hw hwk
  have h0 := hwk.early (hw.elim Or.inl fun h => Or.inr (Or.inr (Or.inr h)))
  exact ⟨by dsimp only; omega, by simp, fun _ => Or.inr ⟨rfl, rfl⟩⟩

theorem mark_sane (h : Sane n p) (hs : s < n) :
    Post (p.store σ s fun w => { w with signaled := true }) (fun q => Sane n q ∧ ∀ t, At p t Idle → At q t Idle) F := by
  unfold Pool.store
  refine (rd_in (by rw [(tick_sane (σ := σ) h).len]; exact hs) F).bind fun w hw => ?_
  have hwk := (tick_sane (σ := σ) h).all w (List.mem_of_getElem? hw)
  refine ⟨set_sane (tick_sane h) ⟨hwk.once, hwk.early, fun hp => (hwk.home hp).imp id fun h => ⟨h.1, rfl⟩⟩, ?_⟩
  intro t ht
  have ht := tick_frame σ p Idle idle_stable t (fun h => h) ht
  by_cases e : t = s
  · subst e
    exact set_at (ht w hw)
  · exact set_frame _ _ _ Idle idle_stable t e ht

theorem pending_sane (h : Sane n p) (hs : s < n) :
    Post (p.store σ s fun w => { w with pending := true }) (fun q => Sane n q ∧ Frame (· = s) p q) F :=
  (store_sane h hs (P := fun _ => True) (fun _ _ h => h) (fun _ _ => trivial) (f := fun w => { w with pending := true })
    fun _ _ hwk => ⟨hwk.once, hwk.early, hwk.home⟩).imp fun _ hq => ⟨hq.1, hq.2.1⟩

theorem dispatch_sane (h : Sane n p) (hs : s < n) (ha : At p s Idle) :
    Post (p.dispatch σ s) (fun r => Sane n r.2 ∧ Frame (· = s) p r.2 ∧ (r.1 = true → At r.2 s fun w => w.placed = true) ∧ (r.1 = false → At r.2 s Idle)) F := by
  refine (rd_in (by rw [(tick_sane (σ := σ) h).len]; exact hs) F).bind fun w hw => ?_
  have hi := tick_frame σ p Idle idle_stable s (fun h => h) ha
  have hwk := (tick_sane (σ := σ) h).all w (List.mem_of_getElem? hw)
  have h0 := hwk.early (Or.inl (hi w hw).2)
  refine (assert_in (by rw [(hi w hw).1]; rfl) F).bind fun _ _ => ?_
  have fr : Frame (· = s) p (p.tick σ) := (tick_frame σ p).mono fun _ h => h.elim
  split
  · exact ⟨set_sane (tick_sane h) ⟨by dsimp only; omega, fun _ => h0, fun e => by cases e⟩, fr.trans (set_frame _ _ _), fun _ => set_at rfl, fun e => by cases e⟩
  · exact ⟨set_sane (tick_sane h) ⟨by dsimp only; omega, fun _ => h0, fun e => by cases e⟩, fr.trans (set_frame _ _ _), fun _ => set_at rfl, fun e => by cases e⟩
  · exact ⟨tick_sane h, fr, (fun e => by cases e), fun _ => hi⟩

theorem pop_sane (h : Sane n p) (hs : s < n) (ha : At p s fun w => w.placed = true) :
    Post (p.pop σ s) (fun r => Sane n r.2 ∧ Frame (· = s) p r.2 ∧ (r.1 = true → At r.2 s fun w => w.stage = .mine)) F := by
  refine (rd_in (by rw [(tick_sane (σ := σ) h).len]; exact hs) F).bind fun w hw => ?_
  have hp := tick_frame σ p _ placed_stable s (fun h => h) ha w hw
  have hwk := (tick_sane (σ := σ) h).all w (List.mem_of_getElem? hw)
  have fr : Frame (· = s) p (p.tick σ) := (tick_frame σ p).mono fun _ h => h.elim
  rw [if_neg (by rw [hp]; decide)]
  split
  · rename_i hq
    have h0 := hwk.early (Or.inr (Or.inr (Or.inl hq)))
    refine ⟨set_sane (tick_sane h) ⟨hwk.once, fun _ => h0, fun e => ?_⟩, fr.trans (set_frame _ _ _), fun _ => set_at rfl⟩
    exact absurd (e.symm.trans hp) (by decide)
  · exact ⟨tick_sane h, fr, fun e => by cases e⟩

end ops

theorem wakes_bound {ws : List Work} {all : Bool} {events : List Nat} {k : Nat} (e : wakes ws all events = some k) (hne : events ≠ []) : k < events.length := by
  unfold wakes at e
  dsimp only at e
  split at e
  · split at e
    · injection e with e
      rw [← e]
      exact List.length_pos_iff.2 hne
    · cases e
  · exact (List.findIdx?_eq_some_iff_getElem.1 e).1

theorem waitEvents_sane {n : Nat} {σ : Nat → Turn} {all : Bool} {events : List Nat} {limit : Limit} {F : Fault → Prop} (hne : events ≠ []) : ∀ (fuel : Nat)
    {p : Pool}, Sane n p → (F .diverge ∨ (limit = .poll ∧ 0 < fuel)) →
    Post (p.waitEvents σ all events limit fuel) (fun r => Sane n r.2 ∧ Frame Nobody p r.2 ∧ (r.1.1 = .ok → r.1.2 < events.length)) F
  | 0, _, _, hF => by
    rcases hF with hF | ⟨_, hF⟩
    · exact hF
    · omega
  | fuel + 1, p, h, hF => by
    rw [Pool.waitEvents]
    split
    · exact ⟨tick_sane h, tick_frame σ p, fun e => by cases e⟩
    · cases hw : wakes (p.tick σ).works all events with
      | some k => exact ⟨tick_sane h, tick_frame σ p, fun _ => wakes_bound hw hne⟩
      | none =>
        dsimp only
        split
        · exact ⟨tick_sane h, tick_frame σ p, fun e => by cases e⟩
        · rename_i hl
          have hF : F .diverge := hF.elim id fun h => absurd (Or.inl h.1) hl
          exact (waitEvents_sane hne fuel (tick_sane h) (Or.inl hF)).imp fun r hr => ⟨hr.1, (tick_frame σ p).trans hr.2.1, hr.2.2⟩

/-- The handles of the caller: those that are valid are of slots, and of different ones. -/
structure Handles (n : Nat) (mem : List Int) : Prop where
  range : ∀ h ∈ mem, handleValid h = true → slotOf h < n
  distinct : ∀ (j k : Nat) (h h' : Int), mem[j]? = some h → mem[k]? = some h' → handleValid h = true → handleValid h' = true → slotOf h = slotOf h' → j = k

/-- A slot that is not dispatched and that no handle from the `i`-th on has. -/
def LeftOut (n : Nat) (mem : List Int) (i : Nat) (p : Pool) (und : Option Nat) : Prop :=
  ∀ s, und = some s → s < n ∧ At p s Idle ∧ ∀ (k : Nat) (h : Int), i ≤ k → mem[k]? = some h → handleValid h = true → slotOf h ≠ s

theorem collect_sane {n : Nat} {σ : Nat → Turn} {mem : List Int} {off : Nat} {all : Bool} {limit : Limit} {F : Fault → Prop} (hh : Handles n mem) :
    ∀ (m i : Nat) (buf : List (Nat × Nat)) (und : Option Nat) (fin : Bool) (p : Pool), Sane n p → BufOk mem off buf → LeftOut n mem (off + i) p und →
    (off + (i + m) ≤ mem.length ∨ F .oob) →
    Post (collect σ mem off all limit m i buf und fin p) (fun r => Sane n r.2 ∧
      match r.1 with
      | .events buf' und' _ => BufOk mem off buf' ∧ LeftOut n mem (off + (i + m)) r.2 und'
      | _ => True) F
  | 0, i, buf, und, fin, p, h, hb, hu, _ => ⟨h, hb, hu⟩
  | m + 1, i, buf, und, fin, p, h, hb, hu, hF => by
    rw [collect]
    have hF' : off + (i + 1 + m) ≤ mem.length ∨ F .oob := hF.imp (fun h => by omega) id
    refine (rd_or (hF.imp (fun h => by omega) id)).bind fun hd hm => ?_
    have next : ∀ {q : Pool} {u : Option Nat}, LeftOut n mem (off + i) q u → LeftOut n mem (off + (i + 1)) q u := by
      intro q u hu s hs
      obtain ⟨h1, h2, h3⟩ := hu s hs
      exact ⟨h1, h2, fun k h hk => h3 k h (by omega)⟩
    have go : ∀ (buf2 : List (Nat × Nat)) (und2 : Option Nat) (fin2 : Bool) (q : Pool), Sane n q → BufOk mem off buf2 → LeftOut n mem (off + (i + 1)) q und2 →
        Post (collect σ mem off all limit m (i + 1) buf2 und2 fin2 q) (fun r => Sane n r.2 ∧
          match r.1 with
          | .events buf' und' _ => BufOk mem off buf' ∧ LeftOut n mem (off + (i + (m + 1))) r.2 und'
          | _ => True) F := by
      intro buf2 und2 fin2 q hq hb2 hu2
      have := collect_sane hh (σ := σ) (all := all) (limit := limit) (F := F) m (i + 1) buf2 und2 fin2 q hq hb2 hu2 hF'
      rw [show i + 1 + m = i + (m + 1) by omega] at this
      exact this
    split
    · exact go buf und fin p h hb (next hu)
    · rename_i hv
      have hv : handleValid hd = true := by simpa using hv
      have hs : (handleIndex hd).toNat < n := hh.range hd (List.mem_of_getElem? hm) hv
      -- the slot that is left out is another one
      have keep : ∀ {q : Pool}, Frame (· = slotOf hd) p q → LeftOut n mem (off + (i + 1)) q und := by
        intro q hfr s hs
        obtain ⟨h1, h2, h3⟩ := hu s hs
        refine ⟨h1, hfr Idle idle_stable s (fun e => h3 (off + i) hd (by omega) hm hv e.symm) h2, fun k h hk => h3 k h (by omega)⟩
      have none_s : ∀ {T : Nat → Prop} {q r : Pool}, Frame Nobody q r → Frame T q r := fun h => h.mono fun _ h => h.elim
      dsimp only
      refine (look_sane h hs).bind fun x hx => ?_
      split
      · split
        · exact go buf und true x.2 hx.1 hb (keep (none_s hx.2.1))
        · exact ⟨hx.1, trivial⟩
      · rename_i hsig
        refine (look_sane hx.1 hs).bind fun y hy => ?_
        have hfresh : At y.2 (slotOf hd) Fresh := by
          refine hy.2.1 Fresh fresh_stable _ (fun h => h) ?_
          intro w hw hp
          have e : x.1 = w := Option.some.inj (hx.2.2.1.symm.trans hw)
          subst e
          exact (hx.2.2.2.home hp).resolve_right fun h => hsig h.2
        have hd2 : Post (if y.1.placed = false then y.2.dispatch σ (handleIndex hd).toNat else .ok (true, y.2))
            (fun r => Sane n r.2 ∧ Frame (· = slotOf hd) p r.2 ∧ (r.1 = false → At r.2 (slotOf hd) Idle)) F := by
          split
          · rename_i hp
            have hi : At y.2 (slotOf hd) Idle := by
              intro w hw
              have e : y.1 = w := Option.some.inj (hy.2.2.1.symm.trans hw)
              subst e
              exact ⟨hp, hfresh y.1 hw hp⟩
            exact (dispatch_sane hy.1 hs hi).imp fun r hr => ⟨hr.1, ((none_s hx.2.1).trans (none_s hy.2.1)).trans hr.2.1, hr.2.2.2⟩
          · exact ⟨hy.1, (none_s hx.2.1).trans (none_s hy.2.1), fun e => by cases e⟩
        refine hd2.bind fun d hd2 => ?_
        split
        · split
          · exact ⟨hd2.1, trivial⟩
          · refine go _ und fin d.2 hd2.1 ?_ (keep hd2.2.1)
            intro x hx
            rcases List.mem_append.1 hx with hx | hx
            · exact hb x hx
            · rw [List.mem_singleton] at hx
              subst hx
              exact ⟨hd, hm, hv, rfl⟩
        · rename_i hfail
          have hidle := hd2.2.2 (by simpa using hfail)
          split
          · refine go buf _ fin d.2 hd2.1 hb ?_
            intro s he
            injection he with he
            subst he
            refine ⟨hs, hidle, fun k h0 hk hm0 hv0 e => ?_⟩
            have := hh.distinct k (off + i) h0 hd hm0 hm hv0 hv e
            omega
          · split
            · refine (execute_sane hd2.1 hs fun w hw => Or.inl (hidle w hw).2).bind fun q hq => ?_
              exact go buf und true q hq.1 hb (keep (hd2.2.1.trans hq.2))
            · exact ⟨hd2.1, trivial⟩
            · exact ⟨hd2.1, trivial⟩

theorem markAll_sane {n : Nat} {σ : Nat → Turn} {mem : List Int} {off : Nat} {events : List (Nat × Nat)} {F : Fault → Prop} (hh : Handles n mem)
    (hF : ∀ f, F f) : ∀ (buf : List (Nat × Nat)) (p : Pool), Sane n p →
    Post (markAll σ mem off events buf p) (fun q => Sane n q ∧ ∀ t, At p t Idle → At q t Idle) F
  | [], p, h => ⟨h, fun _ h => h⟩
  | x :: buf, p, h => by
    rw [markAll]
    refine (rd_or (Or.inr (hF _))).bind fun hd hm => ?_
    split
    · exact markAll_sane hh hF buf p h
    · rename_i hv
      refine (mark_sane h (hh.range hd (List.mem_of_getElem? hm) (by simpa using hv))).bind fun q hq => ?_
      split
      · have ha : ∀ b, Post (assert b) (fun _ => True) F := by
          intro b
          cases b
          · exact hF _
          · exact trivial
        exact (ha _).bind fun _ _ => (markAll_sane hh hF buf q hq.1).imp fun r hr => ⟨hr.1, fun t ht => hr.2 t (hq.2 t ht)⟩
      · split <;> exact hF _

theorem waitFound_sane {n : Nat} {σ : Nat → Turn} {fuel : Nat} {mem : List Int} {off : Nat} {all : Bool} {limit : Limit} {buf : List (Nat × Nat)}
    {und : Option Nat} {p : Pool} {F : Fault → Prop} {i : Nat} (hh : Handles n mem) (h : Sane n p) (hb : BufOk mem off buf) (hne : buf ≠ [])
    (hu : LeftOut n mem i p und) (hF : F .diverge ∨ (limit = .poll ∧ 0 < fuel)) (hall : all = false ∨ ∀ f, F f) :
    Post (waitFound σ fuel mem off all limit buf und p) (fun r => Sane n r.2 ∧ r.1.1 = .processed) F := by
  rw [waitFound]
  refine (waitEvents_sane (by simpa using hne) fuel h hF).bind fun x hx => ?_
  split
  · exact ⟨hx.1, rfl⟩
  · rename_i hok
    have hok : x.1.1 = .ok := by simpa using hok
    have hlt := hx.2.2 hok
    rw [List.length_map] at hlt
    refine (rd_in hlt F).bind fun e he => ?_
    have hpost : Post (if all = true then markAll σ mem off buf buf x.2
        else do
          let h ← rd mem (off + e.2)
          assert (handleValid h)
          let p ← x.2.store σ (handleIndex h).toNat fun w => { w with signaled := true }
          assert (decide ((handleIndex h).toNat = e.1))
          .ok p) (fun q => Sane n q ∧ ∀ t, At x.2 t Idle → At q t Idle) F := by
      split
      · rename_i ha
        exact markAll_sane hh (hall.resolve_left (by rw [ha]; decide)) buf x.2 hx.1
      · obtain ⟨h0, hm, hv, hs0⟩ := hb e (List.mem_of_getElem? he)
        refine (rd_in (List.getElem?_eq_some_iff.1 hm).1 F).bind fun h1 hm1 => ?_
        rw [hm] at hm1
        injection hm1 with hm1
        subst hm1
        refine (assert_in hv F).bind fun _ _ => (mark_sane hx.1 (hh.range h0 (List.mem_of_getElem? hm) hv)).bind fun q hq => ?_
        exact (assert_in (decide_eq_true (hs0 : (handleIndex h0).toNat = e.1)) F).bind fun _ _ => hq
    refine hpost.bind fun q hq => ?_
    split
    · rename_i s
      obtain ⟨h1, h2, _⟩ := hu s rfl
      have hi := hq.2 s (hx.2.1 Idle idle_stable s (fun h => h) h2)
      exact (dispatch_sane hq.1 h1 hi).bind fun d hd => ⟨hd.1, rfl⟩
    · exact ⟨hq.1, rfl⟩

theorem waitChunk_sane {n : Nat} {σ : Nat → Turn} {fuel : Nat} {mem : List Int} {off m : Nat} {all : Bool} {limit : Limit} {p : Pool} {F : Fault → Prop}
    (hh : Handles n mem) (h : Sane n p) (hF : F .diverge ∨ (limit = .poll ∧ 0 < fuel)) (hall : (all = false ∧ off + m ≤ mem.length) ∨ ∀ f, F f) :
    Post (waitChunk σ fuel mem off m all limit p) (fun r => Sane n r.2) F := by
  rw [waitChunk]
  refine (collect_sane hh m 0 [] none false p h (by intro x hx; cases hx) (by intro s hs; cases hs)
    (hall.imp (fun h => by rw [Nat.zero_add]; exact h.2) fun h => h _)).bind fun x hx => ?_
  obtain ⟨h1, h2⟩ := hx
  split
  · exact h1
  · exact h1
  · rename_i buf und fin hr
    rw [hr] at h2
    split
    · split <;> exact h1
    · rename_i hne
      exact (waitFound_sane hh h1 h2.1 hne h2.2 hF (hall.imp (fun h => h.1) id)).imp fun r hr => hr.1

theorem gather_sane {n : Nat} {σ : Nat → Turn} {mem : List Int} {F : Fault → Prop} (hh : Handles n mem) : ∀ (m i : Nat) (p : Pool), Sane n p → i + m ≤ mem.length →
    Post (gather σ mem m i p) (fun r => Sane n r.2 ∧ Frame (fun s => ∃ (k : Nat) (h : Int), i ≤ k ∧ mem[k]? = some h ∧ handleValid h = true ∧ slotOf h = s) p r.2 ∧ r.1.Nodup ∧
      ∀ s ∈ r.1, s < n ∧ At r.2 s Fresh ∧ ∃ (k : Nat) (h : Int), i ≤ k ∧ mem[k]? = some h ∧ handleValid h = true ∧ slotOf h = s) F
  | 0, _, p, h, _ => ⟨h, Frame.refl _ p, List.nodup_nil, fun s hs => by cases hs⟩
  | m + 1, i, p, h, hl => by
    rw [gather]
    refine (rd_in (by omega) F).bind fun hd hm => ?_
    have wider : ∀ s, (∃ (k : Nat) (h : Int), i + 1 ≤ k ∧ mem[k]? = some h ∧ handleValid h = true ∧ slotOf h = s) →
        ∃ (k : Nat) (h : Int), i ≤ k ∧ mem[k]? = some h ∧ handleValid h = true ∧ slotOf h = s := by
      rintro s ⟨k, h, hk, hr⟩
      exact ⟨k, h, by omega, hr⟩
    have go : ∀ q, Sane n q → Frame (fun s => ∃ (k : Nat) (h : Int), i ≤ k ∧ mem[k]? = some h ∧ handleValid h = true ∧ slotOf h = s) p q →
        Post (gather σ mem m (i + 1) q) (fun r => Sane n r.2 ∧ Frame (fun s => ∃ (k : Nat) (h : Int), i ≤ k ∧ mem[k]? = some h ∧ handleValid h = true ∧ slotOf h = s) p r.2 ∧ r.1.Nodup ∧
          ∀ s ∈ r.1, s < n ∧ At r.2 s Fresh ∧ ∃ (k : Nat) (h : Int), i ≤ k ∧ mem[k]? = some h ∧ handleValid h = true ∧ slotOf h = s) F := by
      intro q hq hfr
      refine (gather_sane hh m (i + 1) q hq (by omega)).imp fun r hr => ⟨hr.1, hfr.trans (hr.2.1.mono wider), hr.2.2.1, ?_⟩
      intro s hs
      obtain ⟨h1, h2, h3⟩ := hr.2.2.2 s hs
      exact ⟨h1, h2, wider s h3⟩
    split
    · exact go p h (Frame.refl _ p)
    · rename_i hv
      have hv : handleValid hd = true := by simpa using hv
      have hs : (handleIndex hd).toNat < n := hh.range hd (List.mem_of_getElem? hm) hv
      dsimp only
      refine (look_sane h hs).bind fun x hx => ?_
      split
      · exact go x.2 hx.1 (hx.2.1.mono fun _ h => h.elim)
      · rename_i hsig
        refine (look_sane hx.1 hs).bind fun y hy => ?_
        have hfresh : At y.2 (slotOf hd) Fresh := by
          refine hy.2.1 Fresh fresh_stable _ (fun h => h) ?_
          intro w hw hp
          have e : x.1 = w := Option.some.inj (hx.2.2.1.symm.trans hw)
          subst e
          exact (hx.2.2.2.home hp).resolve_right fun h => hsig h.2
        have here : ∀ s, s = slotOf hd → ∃ (k : Nat) (h : Int), i ≤ k ∧ mem[k]? = some h ∧ handleValid h = true ∧ slotOf h = s :=
          fun s e => ⟨i, hd, Nat.le_refl _, hm, hv, e.symm⟩
        have hd2 : Post (if y.1.placed = false then y.2.dispatch σ (handleIndex hd).toNat else .ok (true, y.2))
            (fun r => Sane n r.2 ∧ Frame (fun s => ∃ (k : Nat) (h : Int), i ≤ k ∧ mem[k]? = some h ∧ handleValid h = true ∧ slotOf h = s) p r.2 ∧ At r.2 (slotOf hd) Fresh) F := by
          split
          · rename_i hp
            have hi : At y.2 (slotOf hd) Idle := by
              intro w hw
              have e : y.1 = w := Option.some.inj (hy.2.2.1.symm.trans hw)
              subst e
              exact ⟨hp, hfresh y.1 hw hp⟩
            refine (dispatch_sane hy.1 hs hi).imp fun r hr =>
              ⟨hr.1, ((hx.2.1.trans hy.2.1).mono fun _ h => h.elim).trans (hr.2.1.mono here), ?_⟩
            intro w hw hpw
            cases hr1 : r.1
            · exact (hr.2.2.2 hr1 w hw).2
            · exact absurd (hpw.symm.trans (hr.2.2.1 hr1 w hw)) (by decide)
          · exact ⟨hy.1, (hx.2.1.trans hy.2.1).mono fun _ h => h.elim, hfresh⟩
        refine hd2.bind fun d hd2 => (gather_sane hh m (i + 1) d.2 hd2.1 (by omega)).bind fun r hr => ?_
        have hnot : ¬ ∃ (k : Nat) (h : Int), i + 1 ≤ k ∧ mem[k]? = some h ∧ handleValid h = true ∧ slotOf h = slotOf hd := by
          rintro ⟨k, h0, hk, hm0, hv0, e⟩
          have := hh.distinct k i h0 hd hm0 hm hv0 hv e
          omega
        refine ⟨hr.1, hd2.2.1.trans (hr.2.1.mono wider), List.nodup_cons.2 ⟨?_, hr.2.2.1⟩, ?_⟩
        · intro hmem
          exact hnot (hr.2.2.2 _ hmem).2.2
        · intro s hmem
          rcases List.mem_cons.1 hmem with rfl | hmem
          · exact ⟨hs, hr.2.1 Fresh fresh_stable _ hnot hd2.2.2, i, hd, Nat.le_refl _, hm, hv, rfl⟩
          · obtain ⟨h1, h2, h3⟩ := hr.2.2.2 s hmem
            exact ⟨h1, h2, wider s h3⟩

theorem work_sane {n : Nat} {σ : Nat → Turn} {F : Fault → Prop} : ∀ (slots : List Nat) (did : Bool) (p : Pool), Sane n p → slots.Nodup →
    (∀ s ∈ slots, s < n ∧ At p s Fresh) → Post (work σ slots did p) (fun r => Sane n r.2 ∧ ∀ s ∈ r.1.1, s < n) F
  | [], _, p, h, _, _ => ⟨h, fun s hs => by cases hs⟩
  | s :: slots, did, p, h, hn, hs => by
    rw [work]
    obtain ⟨hns, hn⟩ := List.nodup_cons.1 hn
    obtain ⟨hsn, hfresh⟩ := hs s List.mem_cons_self
    have keep : ∀ {q}, Frame (· = s) p q → ∀ t ∈ slots, t < n ∧ At q t Fresh := by
      intro q hfr t ht
      obtain ⟨h1, h2⟩ := hs t (List.mem_cons_of_mem _ ht)
      exact ⟨h1, hfr Fresh fresh_stable t (fun e => hns (e ▸ ht)) h2⟩
    have wait : ∀ did q, Sane n q → Frame (· = s) p q →
        Post (do
          let r ← work σ slots did q
          .ok ((s :: r.1.1, r.1.2), r.2) : C _) (fun r => Sane n r.2 ∧ ∀ t ∈ r.1.1, t < n) F := by
      intro did q hq hfr
      refine (work_sane slots did q hq hn (keep hfr)).bind fun r hr => ⟨hr.1, ?_⟩
      intro t ht
      rcases List.mem_cons.1 ht with rfl | ht
      · exact hsn
      · exact hr.2 t ht
    refine (look_sane h hsn).bind fun x hx => ?_
    have fx : Frame (· = s) p x.2 := hx.2.1.mono fun _ h => h.elim
    have hfx := hx.2.1 Fresh fresh_stable s (fun h => h) hfresh
    have hd : Post (if x.1.placed = false then x.2.dispatch σ s else .ok (true, x.2))
        (fun r => Sane n r.2 ∧ Frame (· = s) p r.2 ∧ (r.1 = true → At r.2 s fun w => w.placed = true) ∧ (r.1 = false → At r.2 s Idle)) F := by
      split
      · rename_i hp
        have hi : At x.2 s Idle := by
          intro w hw
          have e : x.1 = w := Option.some.inj (hx.2.2.1.symm.trans hw)
          subst e
          exact ⟨hp, hfx x.1 hw hp⟩
        exact (dispatch_sane hx.1 hsn hi).imp fun r hr => ⟨hr.1, fx.trans hr.2.1, hr.2.2⟩
      · rename_i hp
        refine ⟨hx.1, fx, fun _ w hw => ?_, fun e => by cases e⟩
        have e : x.1 = w := Option.some.inj (hx.2.2.1.symm.trans hw)
        subst e
        simpa using hp
    refine hd.bind fun d hd => ?_
    split
    · rename_i hfail
      refine (execute_sane hd.1 hsn fun w hw => Or.inl (hd.2.2.2 hfail w hw).2).bind fun q hq => ?_
      exact work_sane slots true q hq.1 hn (keep (hd.2.1.trans hq.2))
    · rename_i hok
      have hpl := hd.2.2.1 (by simpa using hok)
      refine (look_sane hd.1 hsn).bind fun y hy => ?_
      have fy : Frame (· = s) p y.2 := hd.2.1.trans (hy.2.1.mono fun _ h => h.elim)
      split
      · exact wait did y.2 hy.1 fy
      · refine (pop_sane hy.1 hsn (hy.2.1 _ placed_stable s (fun h => h) hpl)).bind fun t ht => ?_
        split
        · rename_i hpop
          refine (execute_sane ht.1 hsn fun w hw => Or.inr (ht.2.2 hpop w hw)).bind fun q hq => ?_
          exact work_sane slots true q hq.1 hn (keep ((fy.trans ht.2.1).trans hq.2))
        · exact (pending_sane ht.1 hsn).bind fun q hq => wait did q hq.1 ((fy.trans ht.2.1).trans hq.2)

theorem markSlots_sane {n : Nat} {σ : Nat → Turn} {F : Fault → Prop} : ∀ (slots : List Nat) (p : Pool), Sane n p → (∀ s ∈ slots, s < n) →
    Post (markSlots σ slots p) (fun q => Sane n q) F
  | [], p, h, _ => h
  | s :: slots, p, h, hs => by
    rw [markSlots]
    exact (mark_sane h (hs s List.mem_cons_self)).bind fun q hq => markSlots_sane slots q hq.1 fun t ht => hs t (List.mem_cons_of_mem _ ht)

theorem pass_sane {n : Nat} {σ : Nat → Turn} {fuel : Nat} {mem : List Int} {first : Bool} {F : Fault → Prop} (hh : Handles n mem) (hF : F .diverge) :
    ∀ (m i : Nat) (todo did : Bool) (p : Pool), Sane n p → Post (pass σ fuel mem mem.length first m i todo did p) (fun r => Sane n r.2) F
  | 0, _, _, _, _, _ => hF
  | m + 1, i, todo, did, p, h => by
    rw [pass]
    split
    · dsimp only
      refine (gather_sane hh _ i p h (by split <;> omega)).bind fun g hg => ?_
      refine (work_sane g.1 did g.2 hg.1 hg.2.2.1 fun s hs => ⟨(hg.2.2.2 s hs).1, (hg.2.2.2 s hs).2.1⟩).bind fun r hr => ?_
      split
      · exact pass_sane hh hF m _ _ _ r.2 hr.1
      · rename_i hne
        refine (waitEvents_sane hne fuel hr.1 (Or.inl hF)).bind fun e he => ?_
        split
        · exact (markSlots_sane r.1.1 e.2 he.1 hr.2).bind fun q hq => pass_sane hh hF m _ _ _ q hq
        · split
          · exact he.1
          · exact pass_sane hh hF m _ _ _ e.2 he.1
    · exact h

theorem waitAllInfinite_sane {n : Nat} {σ : Nat → Turn} {fuel : Nat} {mem : List Int} {F : Fault → Prop} (hh : Handles n mem) (hF : F .diverge) :
    ∀ (m : Nat) (first : Bool) (p : Pool), Sane n p → Post (waitAllInfinite σ fuel mem mem.length m first p) (fun r => Sane n r.2) F
  | 0, _, _, _ => hF
  | m + 1, first, p, h => by
    rw [waitAllInfinite]
    refine (pass_sane hh hF _ 0 false false p h).bind fun x hx => ?_
    split
    · exact hx
    · split
      · exact waitAllInfinite_sane hh hF m false x.2 hx
      · exact hx

theorem pollAll_sane {n : Nat} {σ : Nat → Turn} {fuel : Nat} {mem : List Int} {F : Fault → Prop} (hh : Handles n mem) (hF : ∀ f, F f) {count : Nat} :
    ∀ (m i : Nat) (res : WaitResult) (p : Pool), Sane n p → Post (pollAll σ fuel mem count m i res p) (fun r => Sane n r.2) F
  | 0, _, _, _, _ => hF _
  | m + 1, i, res, p, h => by
    rw [pollAll]
    split
    · dsimp only
      refine (waitChunk_sane hh h (Or.inl (hF _)) (Or.inr hF)).bind fun x hx => ?_
      split
      · exact hx
      · exact pollAll_sane hh hF m _ _ x.2 hx
    · exact h

theorem pollAny_sane {n : Nat} {σ : Nat → Turn} {fuel : Nat} {mem : List Int} {F : Fault → Prop} (hh : Handles n mem) (hF : F .diverge ∨ 0 < fuel) :
    ∀ (m i : Nat) (kind : Kind) (late : Bool) (res : WaitResult) (p : Pool), Sane n p → 0 < m → mem.length < i + m →
    (i = 0 ∧ 0 < mem.length ∨ kind = .noWork ∨ res.ec = .etimedout) →
    Post (pollAny σ fuel mem mem.length m i kind late res p) (fun r => Sane n r.2) F
  | 0, _, _, _, _, _, _, h0, _, _ => absurd h0 (Nat.lt_irrefl 0)
  | m + 1, i, kind, late, res, p, h, _, hm, hres => by
    rw [pollAny]
    split
    · dsimp only
      refine (waitChunk_sane hh h (hF.imp id fun h => ⟨rfl, h⟩) (Or.inl ⟨rfl, by split <;> omega⟩)).bind fun x hx => ?_
      split
      · exact pollAny_sane hh hF m _ _ _ _ x.2 hx (by omega) (by unfold maxWait; omega) (by right; left; assumption)
      · split
        · exact hx
        · split
          · exact hx
          · rename_i he
            exact pollAny_sane hh hF m _ _ _ _ x.2 hx (by omega) (by unfold maxWait; omega) (Or.inr (Or.inr (by simpa using he)))
    · rename_i hlt
      split
      · exact h
      · rename_i hk
        refine (assert_in ?_ F).bind fun _ _ => h
        rcases hres with ⟨h1, h2⟩ | h1 | h1
        · omega
        · exact absurd h1 hk
        · simpa using h1

end Tm.Async
