import Verif.Spec.DataPackets
import Verif.Lemmas.Framing
import Verif.Lemmas.Text
/-
Lemmas about compression wrappers and data packets.
-/
namespace Pgp
open Spec

theorem deflate_feed {Z : Zlib} (c : Z.Comp) (lvl : Option Nat) : ∀ (ps : List Bytes) (r : Bytes),
    feedFlush deflateCompress deflateFlush (⟨.comp c, some r, lvl⟩ : CompState Z) ps = .ok (stripZlib (r ++ Zstream Z c ps)) := by
  intro ps
  induction ps generalizing c with
  | nil => intro r; simp [feedFlush, deflateFlush, Zstream]
  | cons p ps ih =>
    intro r
    simp only [feedFlush, deflateCompress, except_bind_ok]
    rw [ih]
    simp [Zstream]

theorem undecomp_feed {Z : Zlib} (step : CompState Z → Bytes → Py (Bytes × CompState Z))
    (flush : CompState Z → Py (Bytes × CompState Z)) (lvl : Option Nat)
    (hs : ∀ r d data, step ⟨.decomp d, some r, lvl⟩ data = (do
      let (o, d) ← Z.decompress d data
      return ([], ⟨.decomp d, some (r ++ o), lvl⟩)))
    (hf : ∀ r d, ∃ s, flush ⟨.decomp d, some r, lvl⟩ = .ok (r ++ Z.decompFlush d, s)) :
    ∀ (qs : List Bytes) (d : Z.Decomp) (r x : Bytes), Zunstream Z d qs = .ok x →
      feedFlush step flush ⟨.decomp d, some r, lvl⟩ qs = .ok (r ++ x) := by
  intro qs
  induction qs with
  | nil =>
    intro d r x h
    obtain ⟨s, hs⟩ := hf r d
    simp only [Zunstream, Except.ok.injEq] at h
    simp [feedFlush, hs, h]
  | cons q qs ih =>
    intro d r x h
    simp only [Zunstream] at h
    obtain ⟨⟨o, d'⟩, h1, h⟩ := except_bind_eq_ok.mp h
    obtain ⟨y, h2, h⟩ := except_bind_eq_ok.mp h
    cases h
    simp only [feedFlush, hs, h1, except_bind_ok, except_pure]
    rw [ih d' (r ++ o) y h2]
    simp

theorem deflate_unfeed {Z : Zlib} (lvl : Option Nat) (qs : List Bytes) (d : Z.Decomp) (r x : Bytes) (h : Zunstream Z d qs = .ok x) :
    feedFlush deflateDecompress deflateFlush (⟨.decomp d, some r, lvl⟩ : CompState Z) qs = .ok (r ++ x) :=
  undecomp_feed _ _ lvl (fun _ _ _ => rfl) (fun _ _ => ⟨_, rfl⟩) qs d r x h

theorem zlib_unfeed {Z : Zlib} (lvl : Option Nat) (qs : List Bytes) (d : Z.Decomp) (r x : Bytes) (h : Zunstream Z d qs = .ok x) :
    feedFlush zlibDecompress zlibFlush (⟨.decomp d, some r, lvl⟩ : CompState Z) qs = .ok (r ++ x) :=
  undecomp_feed _ _ lvl (fun _ _ _ => rfl) (fun _ _ => ⟨_, rfl⟩) qs d r x h

theorem zlib_feed_more {Z : Zlib} (c : Z.Comp) (lvl : Option Nat) (r : Bytes) (ps : List Bytes) :
    feedFlush zlibCompress zlibFlush (⟨.comp c, some r, lvl⟩ : CompState Z) ps = .ok (r ++ Z.compFlush c) := by
  induction ps with
  | nil => simp [feedFlush, zlibFlush]
  | cons p ps ih => simp [feedFlush, zlibCompress, ih]

theorem stripZlib_parts {header body check : Bytes} (h1 : header.length = 2) (h2 : check.length = 4) : stripZlib (header ++ body ++ check) = body := by
  unfold stripZlib slice
  rw [List.append_assoc, List.drop_left' h1]
  exact List.take_left' (by simp only [List.length_append]; omega)

theorem deflate_new_feed {Z : Zlib} {lvl : Option Nat} {c : Z.Comp} (hc : Z.newComp lvl = .ok c) (p : Bytes) (ps : List Bytes) :
    feedFlush deflateCompress deflateFlush (CompState.new Z lvl) (p :: ps) = .ok (stripZlib (Zstream Z c (p :: ps))) := by
  simp only [feedFlush, deflateCompress, CompState.new, hc, except_bind_ok, except_pure]
  rw [deflate_feed]
  simp [Zstream]

theorem deflate_new_unfeed {Z : Zlib} {lvl : Option Nat} {d : Z.Decomp} {x : Bytes} (q : Bytes) (qs : List Bytes)
    (hd : Z.decompress Z.newDecomp [0x78, 0x9c] = .ok ([], d)) (h : Zunstream Z d (q :: qs) = .ok x) :
    feedFlush deflateDecompress deflateFlush (CompState.new Z lvl) (q :: qs) = .ok x := by
  simp only [Zunstream] at h
  obtain ⟨⟨o, d'⟩, h1, h⟩ := except_bind_eq_ok.mp h
  obtain ⟨y, h2, h⟩ := except_bind_eq_ok.mp h
  cases h
  simp only [feedFlush, deflateDecompress, CompState.new, hd, h1, except_bind_ok, except_pure]
  rw [deflate_unfeed _ _ _ _ _ h2]
  simp

theorem zlib_new_unfeed {Z : Zlib} {lvl : Option Nat} {x : Bytes} (q : Bytes) (qs : List Bytes)
    (h : Zunstream Z Z.newDecomp (q :: qs) = .ok x) :
    feedFlush zlibDecompress zlibFlush (CompState.new Z lvl) (q :: qs) = .ok x := by
  simp only [Zunstream] at h
  obtain ⟨⟨o, d'⟩, h1, h⟩ := except_bind_eq_ok.mp h
  obtain ⟨y, h2, h⟩ := except_bind_eq_ok.mp h
  cases h
  simp only [feedFlush, zlibDecompress, CompState.new, h1, except_bind_ok, except_pure]
  rw [zlib_unfeed _ _ _ _ _ h2]
  simp

theorem zlib_new_feed {Z : Zlib} {lvl : Option Nat} {c : Z.Comp} (hc : Z.newComp lvl = .ok c) (p : Bytes) (ps : List Bytes) :
    feedFlush zlibCompress zlibFlush (CompState.new Z lvl) (p :: ps) = .ok (Zstream Z c [p]) := by
  simp only [feedFlush, zlibCompress, CompState.new, hc, except_bind_ok, except_pure]
  rw [zlib_feed_more]
  simp [Zstream]

/-! ### A codec that works (for showing that the hypotheses can be met) -/

/-- Decoder automaton of a toy codec: two header octets, then `1 b` for each octet `b`, then `0`. -/
inductive ToyState where
  | h0 | h1 | tag | octet | done

def toyStep : ToyState → UInt8 → Bytes × ToyState
  | .h0, _ => ([], .h1)
  | .h1, _ => ([], .tag)
  | .tag, x => if x = 1 then ([], .octet) else ([], .done)
  | .octet, x => ([x], .tag)
  | .done, _ => ([], .done)

def toyRun : ToyState → Bytes → Bytes × ToyState
  | s, [] => ([], s)
  | s, x :: xs => let (o, s) := toyStep s x; let (r, s) := toyRun s xs; (o ++ r, s)

def toyEnc (d : Bytes) : Bytes := d.flatMap (fun b => [1, b])

/-- The codec: the compressor writes the header first (`false`: not yet written). -/
def toyZlib : Zlib where
  Comp := Bool
  newComp := fun _ => .ok false
  compress := fun c d => ((if c then [] else [0x78, 0x9c]) ++ toyEnc d, true)
  compFlush := fun c => (if c then [] else [0x78, 0x9c]) ++ [0] ++ [0, 0, 0, 0]
  Decomp := ToyState
  newDecomp := .h0
  decompress := fun s d => .ok (toyRun s d)
  decompFlush := fun _ => []

theorem toyRun_append (s : ToyState) (a b : Bytes) :
    toyRun s (a ++ b) = ((toyRun s a).1 ++ (toyRun (toyRun s a).2 b).1, (toyRun (toyRun s a).2 b).2) := by
  induction a generalizing s with
  | nil => simp [toyRun]
  | cons x a ih => simp [toyRun, ih]

theorem toyRun_enc (d : Bytes) (rest : Bytes) : toyRun .tag (toyEnc d ++ rest) = (d ++ (toyRun .tag rest).1, (toyRun .tag rest).2) := by
  induction d with
  | nil => simp [toyEnc]
  | cons x d ih =>
    have : toyEnc (x :: d) ++ rest = 1 :: x :: (toyEnc d ++ rest) := by simp [toyEnc]
    rw [this]
    simp [toyRun, toyStep, ih]

theorem toy_unstream (qs : List Bytes) (s : ToyState) : Zunstream toyZlib s qs = .ok (toyRun s qs.flatten).1 := by
  induction qs generalizing s with
  | nil => simp [Zunstream, toyZlib, toyRun]
  | cons q qs ih =>
    have : Zunstream toyZlib s (q :: qs) = (Zunstream toyZlib (toyRun s q).2 qs >>= fun r => .ok ((toyRun s q).1 ++ r)) := rfl
    rw [this, ih]
    simp only [except_bind_ok, List.flatten_cons, toyRun_append]

theorem toy_stream (ps : List Bytes) (c : Bool) :
    Zstream toyZlib c ps = (if c then [] else [0x78, 0x9c]) ++ toyEnc ps.flatten ++ [0, 0, 0, 0, 0] := by
  induction ps generalizing c with
  | nil => simp [Zstream, toyZlib, toyEnc]
  | cons p ps ih =>
    simp only [Zstream]
    have h1 : (toyZlib.compress c p).1 = (if c then [] else [0x78, 0x9c]) ++ toyEnc p := rfl
    have h2 : (toyZlib.compress c p).2 = true := rfl
    rw [h1, h2, ih]
    simp [toyEnc]

theorem toyZlib_works : ZlibWorks toyZlib := by
  constructor
  · intro level c hc ps qs hqs
    have : c = false := by cases hc; rfl
    subst this
    refine (toy_unstream qs .h0).trans ?_
    rw [hqs]
    erw [toy_stream ps false]
    have : toyRun .h0 ((if (false : Bool) = true then [] else [0x78, 0x9c]) ++ toyEnc ps.flatten ++ [0, 0, 0, 0, 0]) =
      toyRun .tag (toyEnc ps.flatten ++ [0, 0, 0, 0, 0]) := by
      simp [toyZlib, toyRun, toyStep]
    rw [this, toyRun_enc]
    simp [toyRun, toyStep]
  · intro level c hc
    have : c = false := by cases hc; rfl
    subst this
    refine ⟨ToyState.tag, by simp [toyZlib, toyRun, toyStep], fun ps => ⟨[0x78, 0x9c], toyEnc ps.flatten ++ [0], [0, 0, 0, 0], rfl, rfl, ?_, fun qs hqs => ?_⟩⟩
    · erw [toy_stream ps false]
      simp
    refine (toy_unstream qs .tag).trans ?_
    rw [hqs, toyRun_enc]
    simp [toyRun, toyStep]

end Pgp
