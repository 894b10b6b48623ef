import Verif.Async.RunLemmas

/-!
# The work queue

What holds as long as no work was refused by the work queue.
-/

namespace Tm.Async

/-- The thread has decremented the read semaphore and has still to get a read position. -/
def PopStage.reading : PopStage → Nat
  | .load => 1
  | .cas _ => 1
  | _ => 0

/-- The thread has a read position and has still to release the write semaphore. -/
def PopStage.held : PopStage → Nat
  | .swap _ => 1
  | .release _ => 1
  | _ => 0

def WorkerPc.reading : WorkerPc → Nat
  | .pop p => p.reading
  | _ => 0

def WorkerPc.held : WorkerPc → Nat
  | .pop p => p.held
  | _ => 0

def PushStage.claiming : PushStage → Nat
  | .load => 1
  | .cas _ => 1
  | _ => 0

def PushStage.publishing : PushStage → Nat
  | .put _ => 1
  | .store _ => 1
  | .release => 1
  | _ => 0

def PushStage.putting : PushStage → Nat
  | .put _ => 1
  | _ => 0

/-- Where the main thread is in pushing to the work queue. -/
def MainPc.stage : MainPc → Option PushStage
  | .push .work _ p => some p
  | _ => none

def claiming (p : Option PushStage) : Nat := (p.map PushStage.claiming).getD 0
def publishing (p : Option PushStage) : Nat := (p.map PushStage.publishing).getD 0
def putting (p : Option PushStage) : Nat := (p.map PushStage.putting).getD 0

/-- What holds of the work queue, given where the worker threads are and where the main thread is in pushing to it. -/
structure WorkOk (q : Queue) (ws : List WorkerPc) (p : Option PushStage) : Prop where
  length : q.ring.length = ringSize
  readPos : q.readPos = q.taken % ringSize
  writePos : q.writePos = q.written % ringSize
  read : q.readSem + (ws.map WorkerPc.reading).sum + q.taken + publishing p = q.written
  write : q.writeSem + claiming p + q.written + (ws.map WorkerPc.held).sum = ringSize + q.taken
  held : (ws.map WorkerPc.held).sum ≤ q.taken
  put : ∀ pos, p = some (.put pos) → pos = (q.written - 1) % ringSize
  cas : ∀ pos, .pop (.cas pos) ∈ ws → pos < ringSize
  swap : ∀ pos, .pop (.swap pos) ∈ ws → ∃ k, k < q.taken ∧ k % ringSize = pos
  store : ∀ pos, p = some (.cas pos) → pos < ringSize
  cell : ∀ pos s : Nat, q.ring[pos]? = some (some s) →
    (∃ k, q.taken ≤ k ∧ k + putting p < q.written ∧ k % ringSize = pos) ∨ .pop (.swap pos) ∈ ws

/-- What holds of the queues as long as no work was refused. -/
structure QueueInv (st : State) : Prop where
  work : WorkOk st.work st.workers st.main.stage
  dispatch : st.dispatch = emptyQueue
  array : st.array = []
  dispatcher : st.dispatcher = .wait
  running : st.exited = false
  main : ∀ s p, st.main ≠ .push .dispatch s p

theorem mem_set_of {α : Type} {l : List α} {i : Nat} {a b w : α} (hi : l[i]? = some w) (h : a ∈ l) (hne : a ≠ w) :
    a ∈ l.set i b := by
  obtain ⟨k, hk⟩ := List.mem_iff_getElem?.mp h
  refine List.mem_iff_getElem?.mpr ⟨k, ?_⟩
  rw [List.getElem?_set]
  by_cases hik : i = k
  · subst hik
    rw [hi] at hk
    cases hk
    exact absurd rfl hne
  · rw [if_neg hik]; exact hk

theorem mem_set_self_of {α : Type} {l : List α} {i : Nat} {b w : α} (hi : l[i]? = some w) : b ∈ l.set i b := by
  have := (List.getElem?_eq_some_iff.mp hi).1
  exact List.mem_iff_getElem?.mpr ⟨i, by simp [this]⟩

/-- A worker thread that moves on without an access to the queue. -/
theorem WorkOk.move {q : Queue} {ws : List WorkerPc} {p : Option PushStage} {i : Nat} {w w' : WorkerPc} (h : WorkOk q ws p)
    (hi : ws[i]? = some w) (h1 : w'.reading = w.reading) (h2 : w'.held = w.held)
    (h3 : ∀ pos, w' = .pop (.cas pos) → pos < ringSize) (h4 : ∀ pos, w' ≠ .pop (.swap pos))
    (h5 : ∀ pos, w ≠ .pop (.swap pos)) : WorkOk q (ws.set i w') p := by
  have r := sum_set WorkerPc.reading ws i w w' hi
  have d := sum_set WorkerPc.held ws i w w' hi
  refine ⟨h.length, h.readPos, h.writePos, ?_, ?_, ?_, h.put, ?_, ?_, h.store, ?_⟩
  · have := h.read; omega
  · have := h.write; omega
  · have := h.held; omega
  · intro pos hm
    rcases List.mem_or_eq_of_mem_set hm with hm | hm
    · exact h.cas pos hm
    · exact h3 pos hm.symm
  · intro pos hm
    rcases List.mem_or_eq_of_mem_set hm with hm | hm
    · exact h.swap pos hm
    · exact absurd hm.symm (h4 pos)
  · intro pos s hs
    rcases h.cell pos s hs with h | h
    · exact .inl h
    · exact .inr (mem_set_of hi h (Ne.symm (h5 pos)))

theorem WorkOk.pop {q q' : Queue} {ws : List WorkerPc} {p : Option PushStage} {i : Nat} {k : PopStage}
    {r : PopStage ⊕ Option Nat} (h : WorkOk q ws p) (hi : ws[i]? = some (.pop k)) (hs : popStep q k = .ok (q', r)) :
    WorkOk q' (ws.set i (match r with
      | .inl k' => .pop k'
      | .inr none => .wait
      | .inr (some s) => .exec (.start s))) p := by
  have hmem := List.mem_of_getElem? hi
  have hread := h.read
  have hwrite := h.write
  have hheld := h.held
  cases k with
  | load =>
    simp only [popStep] at hs
    cases hs
    refine h.move hi rfl rfl ?_ nofun nofun
    intro pos hp
    cases hp
    rw [h.readPos]
    exact Nat.mod_lt _ (by decide)
  | cas pos =>
    simp only [popStep] at hs
    split at hs
    · rename_i he
      cases hs
      dsimp only
      have r := sum_set WorkerPc.reading ws i _ (.pop (.swap pos)) hi
      have d := sum_set WorkerPc.held ws i _ (.pop (.swap pos)) hi
      simp only [WorkerPc.reading, WorkerPc.held, PopStage.reading, PopStage.held] at r d
      refine ⟨h.length, ?_, h.writePos, ?_, ?_, ?_, h.put, ?_, ?_, h.store, ?_⟩
      · show next pos = (q.taken + 1) % ringSize
        rw [← he, h.readPos]
        unfold next
        simp only [ringSize]
        omega
      · show q.readSem + _ + (q.taken + 1) + _ = q.written
        omega
      · show q.writeSem + _ + q.written + _ = ringSize + (q.taken + 1)
        omega
      · show _ ≤ q.taken + 1
        omega
      · intro pos' hm
        rcases List.mem_or_eq_of_mem_set hm with hm | hm
        · exact h.cas pos' hm
        · exact nomatch hm
      · intro pos' hm
        rcases List.mem_or_eq_of_mem_set hm with hm | hm
        · obtain ⟨k, hk, hk'⟩ := h.swap pos' hm
          exact ⟨k, Nat.lt_succ_of_lt hk, hk'⟩
        · cases hm
          exact ⟨q.taken, Nat.lt_succ_self _, by rw [← h.readPos, he]⟩
      · intro pos' s hc
        rcases h.cell pos' s hc with ⟨k, hk1, hk2, hk3⟩ | hm
        · by_cases hk : k = q.taken
          · subst hk
            right
            rw [← hk3, ← h.readPos, he]
            exact mem_set_self_of hi
          · exact .inl ⟨k, by show q.taken + 1 ≤ k; omega, hk2, hk3⟩
        · exact .inr (mem_set_of hi hm nofun)
    · cases hs
      refine h.move hi rfl rfl ?_ nofun nofun
      intro pos hp
      cases hp
      rw [h.readPos]
      exact Nat.mod_lt _ (by decide)
  | swap pos =>
    simp only [popStep] at hs
    obtain ⟨v, hv, hs⟩ := bind_ok hs
    cases hs
    dsimp only
    have r := sum_set WorkerPc.reading ws i _ (.pop (.release v)) hi
    have d := sum_set WorkerPc.held ws i _ (.pop (.release v)) hi
    simp only [WorkerPc.reading, WorkerPc.held, PopStage.reading, PopStage.held] at r d
    refine ⟨by simp [h.length], h.readPos, h.writePos, ?_, ?_, ?_, h.put, ?_, ?_, h.store, ?_⟩
    · show q.readSem + _ + q.taken + _ = q.written
      omega
    · show q.writeSem + _ + q.written + _ = ringSize + q.taken
      omega
    · show _ ≤ q.taken
      omega
    · intro pos' hm
      rcases List.mem_or_eq_of_mem_set hm with hm | hm
      · exact h.cas pos' hm
      · exact nomatch hm
    · intro pos' hm
      rcases List.mem_or_eq_of_mem_set hm with hm | hm
      · exact h.swap pos' hm
      · exact nomatch hm
    · intro pos' s hc
      rw [List.getElem?_set] at hc
      by_cases hp : pos = pos'
      · rw [if_pos hp] at hc
        split at hc <;> exact nomatch hc
      · rw [if_neg hp] at hc
        rcases h.cell pos' s hc with h | hm
        · exact .inl h
        · refine .inr (mem_set_of hi hm ?_)
          intro he
          cases he
          exact hp rfl
  | release v =>
    simp only [popStep] at hs
    cases hs
    have h1 := le_sum WorkerPc.held ws _ hmem
    simp only [WorkerPc.held, PopStage.held] at h1
    have hsem : release q.writeSem = q.writeSem + 1 := by
      unfold release
      rw [if_pos (by omega)]
    have gen : ∀ w' : WorkerPc, w'.reading = 0 → w'.held = 0 → (∀ k, w' ≠ .pop k) →
        WorkOk { q with writeSem := release q.writeSem } (ws.set i w') p := by
      intro w' e1 e2 e3
      have r := sum_set WorkerPc.reading ws i _ w' hi
      have d := sum_set WorkerPc.held ws i _ w' hi
      rw [e1] at r
      rw [e2] at d
      simp only [WorkerPc.reading, WorkerPc.held, PopStage.reading, PopStage.held] at r d
      refine ⟨h.length, h.readPos, h.writePos, ?_, ?_, ?_, h.put, ?_, ?_, h.store, ?_⟩
      · show q.readSem + _ + q.taken + _ = q.written
        omega
      · show release q.writeSem + _ + q.written + _ = ringSize + q.taken
        omega
      · show _ ≤ q.taken
        omega
      · intro pos' hm
        rcases List.mem_or_eq_of_mem_set hm with hm | hm
        · exact h.cas pos' hm
        · exact absurd hm.symm (e3 _)
      · intro pos' hm
        rcases List.mem_or_eq_of_mem_set hm with hm | hm
        · exact h.swap pos' hm
        · exact absurd hm.symm (e3 _)
      · intro pos' s hc
        rcases h.cell pos' s hc with h | hm
        · exact .inl h
        · exact .inr (mem_set_of hi hm nofun)
    cases v with
    | none => exact gen _ rfl rfl nofun
    | some s => exact gen _ rfl rfl nofun

/-- Taking a slot out of the queue. -/
theorem WorkOk.steal {q q' : Queue} {ws : List WorkerPc} {p : Option PushStage} (h : WorkOk q ws p)
    (e1 : q'.readSem = q.readSem) (e2 : q'.writeSem = q.writeSem) (e3 : q'.readPos = q.readPos)
    (e4 : q'.writePos = q.writePos) (e5 : q'.written = q.written) (e6 : q'.taken = q.taken)
    (e7 : q'.ring.length = q.ring.length)
    (e8 : ∀ p : Nat, q'.ring[p]? = q.ring[p]? ∨ q'.ring[p]? = some none) : WorkOk q' ws p := by
  refine ⟨e7.trans h.length, by rw [e3, e6]; exact h.readPos, by rw [e4, e5]; exact h.writePos, by rw [e1, e5, e6]; exact h.read,
    by rw [e2, e5, e6]; exact h.write, by rw [e6]; exact h.held, by rw [e5]; exact h.put, h.cas, by rw [e6]; exact h.swap,
    h.store, ?_⟩
  intro pos s hc
  rw [e5, e6]
  rcases e8 pos with h1 | h1
  · rw [h1] at hc; exact h.cell pos s hc
  · rw [h1] at hc; exact nomatch hc

end Tm.Async
