import Verif.Model.Lock
import Mathlib.Logic.Relation
import Mathlib.Tactic.Set
/-
Property theorems C55: the lock file of a database resource.
-/
namespace Pgp.Props

/-- Lock object `l` is held by its process: between a successful `acquire` and the end of `release`. -/
def Holds (s : LockState) (l : Nat) : Prop := s.phase l = .held ∨ s.phase l = .releasing

/-- A step of a history in which a process only exits (running its clean-up) when the lock file is absent or its own. -/
def CleanStep (owner : Nat → Nat) (s s' : LockState) : Prop :=
  ∃ ev, LockStep owner ev s s' ∧ ∀ l, ev = .exit l → ∀ m, s.file = some m → owner m = owner l

/-- Any step. -/
def AnyStep (owner : Nat → Nat) (s s' : LockState) : Prop := ∃ ev, LockStep owner ev s s'

private def Inv (s : LockState) : Prop :=
  ∀ l, (s.phase l = .linked ∨ s.phase l = .held ∨ s.phase l = .releasing) → s.file = some l

private theorem inv_step {owner : Nat → Nat} {s s' : LockState} (hi : Inv s) (h : CleanStep owner s s') : Inv s' := by
  obtain ⟨ev, h, hx⟩ := h
  cases h with
  | link _ l hp hf =>
    intro m hm
    simp only [LockState.set] at hm
    split at hm
    · next e => rw [e]
    · have := hi m hm; rw [hf] at this; cases this
  | linkFails _ l m hp hf => exact hi
  | confirm _ l m hp hf ho =>
    intro k hk
    simp only [LockState.set] at hk
    split at hk
    · next e => rw [e]; exact hi l (Or.inl hp)
    · exact hi k hk
  | interloper _ l m hp hf ho =>
    intro k hk
    simp only [LockState.set] at hk
    split at hk
    · simp at hk
    · next e =>
      have h1 := hi k hk
      have h2 := hi l (Or.inl hp)
      rw [h1] at h2
      exact absurd (Option.some.inj h2) e
  | confirmFails _ l hp hf => exact absurd (hi l (Or.inl hp)) (by rw [hf]; simp)
  | startRelease _ l m hp hf ho =>
    intro k hk
    simp only [LockState.set] at hk
    split at hk
    · next e => rw [e]; exact hi l (Or.inr (Or.inl hp))
    · exact hi k hk
  | unlink _ l m hp hf =>
    intro k hk
    simp only [LockState.set] at hk
    split at hk
    · simp at hk
    · next e =>
      have h1 := hi k hk
      have h2 := hi l (Or.inr (Or.inr hp))
      rw [h1] at h2
      exact absurd (Option.some.inj h2) e
  | unlinkFails _ l hp hf => exact absurd (hi l (Or.inr (Or.inr hp))) (by rw [hf]; simp)
  | exit _ l hp =>
    intro k hk
    simp only at hk
    split at hk
    · simp at hk
    · next e =>
      exact absurd (hx l rfl k (hi k hk)) e

private theorem inv_reach {owner : Nat → Nat} {s : LockState} (h : Relation.ReflTransGen (CleanStep owner) LockState.initial s) : Inv s := by
  induction h with
  | refl => intro l hl; simp [LockState.initial] at hl
  | tail _ hs ih => exact inv_step ih hs

/-- C55 (partial): over every interleaving of the steps of any number of lock objects in any number of processes, as long as no
process exits while another process has the lock, at most one lock object is held at any time; and while one is held no other
`acquire` succeeds (it raises at once, it does not wait).  Missing: exits of other processes (`C55_exit_breaks_lock_refuted`), and the
several users of one lock object (`C55_nested_release_refuted`). -/
theorem C55_mutual_exclusion_partial (owner : Nat → Nat) (s : LockState)
    (h : Relation.ReflTransGen (CleanStep owner) LockState.initial s) :
    (∀ l m, Holds s l → Holds s m → l = m) ∧
      ∀ l m, Holds s l → s.phase m = .idle → acquireCall s m = (.error .runtimeError, s) := by
  have hi := inv_reach h
  constructor
  · intro l m hl hm
    have h1 := hi l (Or.inr hl)
    have h2 := hi m (Or.inr hm)
    rw [h1] at h2
    exact Option.some.inj h2
  · intro l m hl hm
    have h1 := hi l (Or.inr hl)
    simp [acquireCall, hm, h1]

/-- Lock 1 links the file and finds its own process in it. -/
example := C55_mutual_exclusion_partial (fun l => l) _ (.tail (.tail .refl ⟨_, .link LockState.initial 1 rfl rfl, fun l h => by cases h⟩)
  ⟨_, .confirm _ 1 1 (by decide) rfl rfl, fun l h => by cases h⟩)

/-- C55: without exits, `release` of a held lock always frees it for the next one to acquire. -/
theorem C55_release_frees (owner : Nat → Nat) (s : LockState) (h : Relation.ReflTransGen (CleanStep owner) LockState.initial s) (l m : Nat)
    (hl : s.phase l = .held) (hm : s.phase m = .idle) :
    (releaseCall owner s l).1 = .ok () ∧ (acquireCall (releaseCall owner s l).2 m).1 = .ok true := by
  have hi := inv_reach h l (Or.inr (Or.inl hl))
  have hne : m ≠ l := by rintro rfl; rw [hl] at hm; cases hm
  simp [releaseCall, hl, hi, acquireCall, LockState.set, hm, hne]

private theorem holds_one (owner : Nat → Nat) (l : Nat) :
    Relation.ReflTransGen (CleanStep owner) LockState.initial ⟨fun m => if m = l then .held else .idle, some l⟩ := by
  have h1 : CleanStep owner LockState.initial ⟨LockState.initial.set l .linked, some l⟩ :=
    ⟨_, .link _ l rfl rfl, fun _ h => by cases h⟩
  have h2 : CleanStep owner ⟨LockState.initial.set l .linked, some l⟩
      ⟨(⟨LockState.initial.set l .linked, some l⟩ : LockState).set l .held, some l⟩ :=
    ⟨_, .confirm _ l l (by simp [LockState.set]) rfl rfl, fun _ h => by cases h⟩
  have h3 : (⟨(⟨LockState.initial.set l .linked, some l⟩ : LockState).set l .held, some l⟩ : LockState) =
      ⟨fun m => if m = l then .held else .idle, some l⟩ := by
    simp only [LockState.mk.injEq, and_true]
    funext m
    simp only [LockState.set, LockState.initial]
    split <;> rfl
  exact .tail (.tail .refl h1) (h3 ▸ h2)

/-- The hypotheses are met by a state in which lock object 7 is held and 8 is not. -/
example : ∃ s, Relation.ReflTransGen (CleanStep id) LockState.initial s ∧ Holds s 7 ∧ s.phase 8 = .idle :=
  ⟨_, holds_one id 7, Or.inl (by simp), by simp⟩

/-- C55 refuted (exit of another process): if process A holds the lock, B has a lock object for the same file and exits, B's exit
handler deletes A's lock file, and a third process C acquires the lock while A still holds it. -/
theorem C55_exit_breaks_lock_refuted (owner : Nat → Nat) (a b c : Nat) (hab : owner a ≠ owner b) (hbc : owner c ≠ owner b) (hac : a ≠ c) :
    ∃ s, Relation.ReflTransGen (AnyStep owner) LockState.initial s ∧ Holds s a ∧ Holds s c := by
  have h0 : Relation.ReflTransGen (AnyStep owner) LockState.initial ⟨fun m => if m = a then .held else .idle, some a⟩ :=
    Relation.ReflTransGen.mono (fun _ _ h => ⟨_, h.choose_spec.1⟩) _ _ (holds_one owner a)
  have hba : b ≠ a := by rintro rfl; exact hab rfl
  set s0 : LockState := ⟨fun m => if m = a then .held else .idle, some a⟩ with hs0
  set s1 : LockState := ⟨fun m => if owner m = owner b then .dead else s0.phase m, none⟩ with hs1
  have h1 : AnyStep owner s0 s1 := ⟨_, .exit s0 b (by simp [hs0, hba])⟩
  have hc1 : s1.phase c = .idle := by simp [hs1, hs0, hbc, Ne.symm hac]
  have h2 : AnyStep owner s1 ⟨s1.set c .linked, some c⟩ := ⟨_, .link s1 c hc1 rfl⟩
  have h3 : AnyStep owner ⟨s1.set c .linked, some c⟩ ⟨(⟨s1.set c .linked, some c⟩ : LockState).set c .held, some c⟩ :=
    ⟨_, .confirm _ c c (by simp [LockState.set]) rfl rfl⟩
  refine ⟨_, .tail (.tail (.tail h0 h1) h2) h3, ?_, ?_⟩
  · left; simp [LockState.set, hac, hs1, hs0, hab]
  · left; simp [LockState.set]

example : (fun n : Nat => n) 1 ≠ (fun n => n) 2 ∧ (fun n : Nat => n) 3 ≠ (fun n => n) 2 ∧ (1 : Nat) ≠ 3 := by decide

/-- C55 refuted (nesting): a user of a lock object who acquires it a second time (as adding a key does when it re-reads the file) and
releases once has released the lock: another lock object then acquires it although the first acquisition was never released.  The
same holds for two threads sharing one lock object: the second `acquire` returns True at once. -/
theorem C55_nested_release_refuted (owner : Nat → Nat) (l m : Nat) (hlm : l ≠ m) :
    let s1 := (acquireCall LockState.initial l).2
    let s2 := (acquireCall s1 l).2
    let s3 := (releaseCall owner s2 l).2
    (acquireCall LockState.initial l).1 = .ok true ∧ (acquireCall s1 l).1 = .ok true ∧
      (releaseCall owner s2 l).1 = .ok () ∧ (acquireCall s3 m).1 = .ok true := by
  have hml : m ≠ l := Ne.symm hlm
  simp [acquireCall, releaseCall, LockState.initial, LockState.set, hml]

example := C55_nested_release_refuted id 1 2 (by decide)

end Pgp.Props
