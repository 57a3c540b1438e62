import Verif.Model.Py
/-
Model of the lock file of a database resource, /repo/pgp/db/gpg.py:61-148.  Lock objects for one file name are numbered; `owner l` is
the process that made lock object `l` (its pid is in the template file, so reading the lock file tells which process linked it).
All processes are on one node; forking after making the lock object is not modelled.
-/
namespace Pgp

/-- Where a lock object is in `acquire`/`release`: `idle` is `locked = False`; `linked` is after `os.link` (124) and before the
check (125-126); `held` is `locked = True`; `releasing` is after the check in `release` (142) and before `os.unlink` (143);
`dead`: its process has exited. -/
inductive LockPhase where
  | idle | linked | held | releasing | dead
  deriving DecidableEq

/-- `phase l` of every lock object; `file` is the lock object whose template is linked under the lock file's name, if that exists. -/
structure LockState where
  phase : Nat → LockPhase
  file : Option Nat

def LockState.set (s : LockState) (l : Nat) (p : LockPhase) : Nat → LockPhase := fun m => if m = l then p else s.phase m

/-- At the start: no lock file, nothing held. -/
def LockState.initial : LockState := ⟨fun _ => .idle, none⟩

/-- What happens in a step: something in `acquire` or `release`, or the exit of the process of lock object `l`. -/
inductive LockEvent where
  | call
  | exit (l : Nat)

/-- One step of one thread of one process. -/
inductive LockStep (owner : Nat → Nat) : LockEvent → LockState → LockState → Prop where
  /-- gpg.py:124: the link succeeds only if the lock file does not exist. -/
  | link (s : LockState) (l : Nat) (hp : s.phase l = .idle) (hf : s.file = none) :
      LockStep owner .call s ⟨s.set l .linked, some l⟩
  /-- gpg.py:124: FileExistsError; `acquire` raises. -/
  | linkFails (s : LockState) (l m : Nat) (hp : s.phase l = .idle) (hf : s.file = some m) : LockStep owner .call s s
  /-- gpg.py:125-128, 134: the file names our process. -/
  | confirm (s : LockState) (l m : Nat) (hp : s.phase l = .linked) (hf : s.file = some m) (ho : owner m = owner l) :
      LockStep owner .call s ⟨s.set l .held, s.file⟩
  /-- gpg.py:129-133: the file names another process: unlink it and try again. -/
  | interloper (s : LockState) (l m : Nat) (hp : s.phase l = .linked) (hf : s.file = some m) (ho : owner m ≠ owner l) :
      LockStep owner .call s ⟨s.set l .idle, none⟩
  /-- gpg.py:125: the file is gone: `acquire` raises. -/
  | confirmFails (s : LockState) (l : Nat) (hp : s.phase l = .linked) (hf : s.file = none) :
      LockStep owner .call s ⟨s.set l .idle, none⟩
  /-- gpg.py:141-142: the file names our process. -/
  | startRelease (s : LockState) (l m : Nat) (hp : s.phase l = .held) (hf : s.file = some m) (ho : owner m = owner l) :
      LockStep owner .call s ⟨s.set l .releasing, s.file⟩
  /-- gpg.py:143-145. -/
  | unlink (s : LockState) (l m : Nat) (hp : s.phase l = .releasing) (hf : s.file = some m) :
      LockStep owner .call s ⟨s.set l .idle, none⟩
  /-- gpg.py:143: the file is gone: raises, `locked` stays True. -/
  | unlinkFails (s : LockState) (l : Nat) (hp : s.phase l = .releasing) (hf : s.file = none) :
      LockStep owner .call s ⟨s.set l .held, none⟩
  /-- gpg.py:64-75 `_clean_up_locks` at the exit of a process that has lock object `l`: the lock file is unlinked whether or not it
  is ours. -/
  | exit (s : LockState) (l : Nat) (hp : s.phase l ≠ .dead) :
      LockStep owner (.exit l) s ⟨fun m => if owner m = owner l then .dead else s.phase m, none⟩

/-- `acquire(timeout=None)` (gpg.py:113-136) without interruption: if `locked` is already set it returns True at once. -/
def acquireCall (s : LockState) (l : Nat) : Py Bool × LockState :=
  match s.phase l with
  | .held => (.ok true, s)
  | .releasing => (.ok true, s)
  | .dead => (.error .runtimeError, s)
  | _ =>
    match s.file with
    | some _ => (.error .runtimeError, s)   -- FileExistsError
    | none => (.ok true, ⟨s.set l .held, some l⟩)

/-- `release()` (gpg.py:138-148) without interruption. -/
def releaseCall (owner : Nat → Nat) (s : LockState) (l : Nat) : Py Unit × LockState :=
  match s.phase l with
  | .held =>
    match s.file with
    | none => (.error .runtimeError, s)     -- FileNotFoundError
    | some m => if owner m = owner l then (.ok (), ⟨s.set l .idle, none⟩) else (.ok (), s)
  | _ => (.ok (), s)

end Pgp
