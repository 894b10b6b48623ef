import Verif.Alloc.Stack
/-!
# Model of `LockingAllocator` (tm_allocator.h)

The allocator inside is any object whose state is a number of words and whose member functions are functions of them: it is a parameter of
the template. A member function loads the words one after the other and stores them one after the other, other threads run in
between; nothing but the mutex keeps them apart. `std::recursive_mutex` is what the C++ standard says. No member function of the class calls
another one, so that a thread never locks the mutex twice; `mutex()` and `is_valid` do not compile when they are used (lines 867 and 875).

Not modelled: moving the allocator while threads use it.
-/
namespace Tm.Lock

/-- An allocator: words, the member functions with their arguments, and their results. -/
structure Object (W O R : Type) where
  exec : O → List W → C (R × List W)
  size : ∀ o s r s', exec o s = .ok (r, s') → s'.length = s.length

/-- Where a thread is: outside; at the constructor of `LockGuard`; inside, loading words; inside, storing words; behind the destructor of
`LockGuard`. -/
inductive Phase (W O R : Type) where
  | idle
  | wants (o : O)
  | loading (o : O) (regs : List W)
  | storing (r : R) (out : List W) (i : Nat)
  | leaving (r : R)
deriving DecidableEq, Repr

/-- What can be seen from outside: a thread calls a member function, it returns, it throws. -/
inductive Event (O R : Type) where
  | call (t : Nat) (o : O)
  | ret (t : Nat) (r : R)
  | threw (t : Nat)
deriving DecidableEq, Repr

/-- tm_allocator.h:815-817 the members, the threads, and what happened so far. -/
structure State (W O R : Type) where
  cells : List W
  /-- the thread that has locked the mutex -/
  owner : Option Nat
  phase : Nat → Phase W O R
  log : List (Event O R)

/-- What happens next: a thread calls a member function, the mutex cannot be locked, a thread runs. -/
inductive Act (O : Type) where
  | call (t : Nat) (o : O)
  | fails (t : Nat)
  | run (t : Nat)
deriving DecidableEq, Repr

/-- The thread `t` is now at `x`. -/
def State.at {W O R : Type} (st : State W O R) (t : Nat) (x : Phase W O R) : Nat → Phase W O R := fun u => if u = t then x else st.phase u

/-- One step; `none` if it is not possible. tm_allocator.h:825-860 the member functions, 1389 and 1395-1397 `LockGuard`, 1427-1430 `lock_throws` and
1439-1447 `unlock`. -/
def State.step {W O R : Type} (obj : Object W O R) (st : State W O R) : Act O → C (Option (State W O R))
  | .call t o => match st.phase t with
    | .idle => .ok (some { st with phase := st.at t (.wants o), log := st.log ++ [.call t o] })
    | _ => .ok none
  | .fails t => match st.phase t with
    | .wants _ => .ok (some { st with phase := st.at t .idle, log := st.log ++ [.threw t] })
    | _ => .ok none
  | .run t => match st.phase t with
    | .idle => .ok none
    | .wants o => match st.owner with
      | none => .ok (some { st with owner := some t, phase := st.at t (.loading o []) })
      | some _ => .ok none
    | .loading o regs => match st.cells[regs.length]? with
      | some w => .ok (some { st with phase := st.at t (.loading o (regs ++ [w])) })
      | none => do
        let x ← obj.exec o regs
        .ok (some { st with phase := st.at t (.storing x.1 x.2 0) })
    | .storing r out i => match out[i]? with
      | some w => .ok (some { st with cells := st.cells.set i w, phase := st.at t (.storing r out (i + 1)) })
      | none => .ok (some { st with owner := none, phase := st.at t (.leaving r) })
    | .leaving r => .ok (some { st with phase := st.at t .idle, log := st.log ++ [.ret t r] })

/-- A run; acts that are not possible do not happen. -/
def State.runs {W O R : Type} (obj : Object W O R) (st : State W O R) : List (Act O) → C (State W O R)
  | [] => .ok st
  | a :: acts => do
    let x ← st.step obj a
    match x with
    | some st => st.runs obj acts
    | none => st.runs obj acts

/-- Before the first call. -/
def State.start {W O R : Type} (cells : List W) : State W O R := ⟨cells, none, fun _ => .idle, []⟩

/-! ### `LockingAllocator<StackAllocator>` -/

/-- The member functions: tm_allocator.h:825-828, 837-840, 857-860. -/
inductive StackOp where
  | allocate (size alignment : Alloc.U64)
  | free (ptr size alignment : Alloc.U64)
  | clear
deriving DecidableEq, Repr

/-- The members of `StackAllocator` as words. -/
def words (s : Alloc.Stack) : List Alloc.U64 := [s.p, s.sz, s.cap, s.last]

/-- The member functions of `StackAllocator` as functions of words. -/
def stackExec (o : StackOp) (ws : List Alloc.U64) : C (Alloc.Block × List Alloc.U64) :=
  match ws with
  | [p, sz, cap, last] => match o with
    | .allocate size alignment => do
      let x ← (Alloc.Stack.mk p sz cap last).allocate size alignment
      .ok (x.1, words x.2)
    | .free ptr size alignment => do
      let s ← (Alloc.Stack.mk p sz cap last).free ptr size alignment
      .ok (.none, words s)
    | .clear => .ok (.none, words (Alloc.Stack.mk p sz cap last).clear)
  | _ => .error .invalid

theorem stackExec_size (o : StackOp) (ws : List Alloc.U64) (r : Alloc.Block) (ws' : List Alloc.U64) (h : stackExec o ws = .ok (r, ws')) :
    ws'.length = ws.length := by
  unfold stackExec at h
  split at h
  · split at h
    · cases e : (Alloc.Stack.mk _ _ _ _).allocate _ _ with
      | error f => rw [e] at h; cases h
      | ok x => rw [e] at h; cases h; rfl
    · cases e : (Alloc.Stack.mk _ _ _ _).free _ _ _ with
      | error f => rw [e] at h; cases h
      | ok x => rw [e] at h; cases h; rfl
    · cases h; rfl
  · cases h

/-- The object. -/
def stack : Object Alloc.U64 StackOp Alloc.Block := ⟨stackExec, stackExec_size⟩

end Tm.Lock
