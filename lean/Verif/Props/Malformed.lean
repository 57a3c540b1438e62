import Verif.Model.Files
import Verif.Spec.Malformed
import Verif.Lemmas.NoDiv
import Verif.Lemmas.SigPackets
import Verif.Props.Files
import Verif.Props.Streams
import Verif.Props.SigPackets
import Verif.Props.DataPackets
/-
C117: the exceptions that malformed data can lead to.
-/
namespace Pgp.Props
open Pgp.Spec

/-- The computation ends in no exception outside the list. -/
def Only {α : Type} (S : List PyErr) (r : Py α) : Prop := ∀ e, r = .error e → e ∈ S

theorem only_ok {α : Type} {S : List PyErr} (a : α) : Only S (.ok a : Py α) := by intro e h; cases h
theorem only_pure {α : Type} {S : List PyErr} (a : α) : Only S (pure a : Py α) := only_ok a
theorem only_error {α : Type} {S : List PyErr} {e : PyErr} (h : e ∈ S) : Only S (.error e : Py α) := by intro e' h'; cases h'; exact h
theorem only_bind {α β : Type} {S : List PyErr} {x : Py α} {f : α → Py β} (hx : Only S x) (hf : ∀ a, x = .ok a → Only S (f a)) : Only S (x >>= f) := by
  cases x with
  | error e => intro e' h; exact hx e' (by cases h; rfl)
  | ok a => exact hf a rfl
theorem only_mono {α : Type} {S T : List PyErr} {r : Py α} (h : Only S r) (hs : ∀ e ∈ S, e ∈ T) : Only T r := fun e he => hs e (h e he)
theorem only_ite {α : Type} {S : List PyErr} {c : Prop} [Decidable c] {a b : Py α} (ha : Only S a) (hb : Only S b) : Only S (if c then a else b) := by split <;> assumption
theorem only_ite' {α : Type} {S : List PyErr} {c : Prop} [Decidable c] {a b : Py α} (ha : Only S a) (hb : ¬ c → Only S b) : Only S (if c then a else b) := by
  split
  · exact ha
  · exact hb ‹_›
theorem only_mapM {α β : Type} {S : List PyErr} {f : α → Py β} : ∀ (l : List α), (∀ a ∈ l, Only S (f a)) → Only S (l.mapM f)
  | [], _ => only_pure _
  | x :: l, h => by
    rw [List.mapM_cons]
    exact only_bind (h x (by simp)) fun _ _ => only_bind (only_mapM l fun a ha => h a (by simp [ha])) fun _ _ => only_pure _

theorem only_idx {S : List PyErr} (h : PyErr.indexError ∈ S) (d : Bytes) (o : Nat) : Only S (idx d o) := fun e he => by rw [idx_error he]; exact h
theorem only_int {S : List PyErr} (h : PyErr.indexError ∈ S) (d : Bytes) (o n : Nat) : Only S (bytesToInt d o n) := fun e he => by rw [bytesToInt_error he]; exact h
theorem only_newLength {S : List PyErr} (h : PyErr.indexError ∈ S) (d : Bytes) (o : Nat) : Only S (newPacketLength d o) := fun e he => by rw [newPacketLength_error he]; exact h
theorem only_assert {S : List PyErr} (h : PyErr.assertionError ∈ S) (c : Bool) : Only S (pyAssert c) := by
  unfold pyAssert; exact only_ite (only_ok _) (only_error h)
theorem only_mpi {S : List PyErr} (h : PyErr.indexError ∈ S) (d : Bytes) (o : Nat) : Only S (mpiToInt d o) := by
  unfold mpiToInt mpiLength
  exact only_bind (only_bind (only_int h _ _ _) fun _ _ => only_pure _) fun _ _ => only_bind (only_int h _ _ _) fun _ _ => only_pure _
theorem only_hexLoop {S : List PyErr} (h : PyErr.indexError ∈ S) (d : Bytes) : ∀ (n o : Nat), Only S (hexLoop d o n)
  | 0, o => only_ok _
  | n + 1, o => by
    unfold hexLoop
    exact only_bind (only_idx h _ _) fun _ _ => only_bind (only_hexLoop h d n _) fun _ _ => only_pure _
theorem only_hex {S : List PyErr} (h : PyErr.indexError ∈ S) (h' : PyErr.assertionError ∈ S) (d : Bytes) (o : Nat) (e : Option Nat) : Only S (bytearrayToHex d o e) := by
  unfold bytearrayToHex
  split
  · exact only_ite (only_error h') (only_bind (only_hexLoop h _ _ _) fun _ _ => only_pure _)
  · exact only_hexLoop h _ _ _
theorem only_hex_even {S : List PyErr} (h : PyErr.indexError ∈ S) (d : Bytes) (o n : Nat) (hn : n % 2 = 0) : Only S (bytearrayToHex d o (some n)) := by
  unfold bytearrayToHex
  show Only S (if n % 2 ≠ 0 then _ else _)
  rw [if_neg (by omega)]
  exact only_bind (only_hexLoop h _ _ _) fun _ _ => only_pure _

theorem only_noDiv {α : Type} {S : List PyErr} {r : Py α} (h1 : NoDiv r) (h2 : Only (.diverges :: S) r) : Only S r := by
  intro e h
  rcases List.mem_cons.mp (h2 e h) with rfl | h'
  · exact absurd h h1
  · exact h'

/-! ### armored text -/

theorem only_splitColon : ∀ s : Str, Only armorErrors (splitColon s)
  | [] => only_error (by decide)
  | c :: t => by
    unfold splitColon
    split
    · rename_i h; cases h
    · exact only_ok _
    · rename_i h; cases h
      exact only_bind (only_splitColon t) fun _ _ => only_pure _

theorem only_skipBlank : ∀ l : List Str, Only armorErrors (skipBlank l)
  | [] => only_error (by decide)
  | l :: ls => only_ite (only_skipBlank ls) (only_ok _)

theorem only_headerLoop : ∀ (l : List Str) (h : ArmorHeaders), Only armorErrors (headerLoop l h)
  | [], _ => only_error (by decide)
  | l :: ls, h => only_ite (only_ok _) (only_bind (only_splitColon l) fun p _ => only_headerLoop ls (h.add p.1 p.2))

theorem only_dataLoop : ∀ (l : List Str), Only armorErrors (dataLoop l)
  | [] => only_error (by decide)
  | l :: ls => only_ite (only_ok _) (only_bind (only_dataLoop ls) fun _ _ => only_pure _)

theorem only_a2b : ∀ (s : Str) (q l p : Nat), Only armorErrors (a2bLoop s q l p)
  | [], q, l, p => only_ite (only_ok _) (only_error (by decide))
  | ch :: t, q, l, p => by
    unfold a2bLoop
    refine only_ite (only_ite (only_ite (only_ok _) (only_a2b _ _ _ _)) (only_a2b _ _ _ _)) ?_
    split
    · exact only_a2b _ _ _ _
    · split
      · exact only_a2b _ _ _ _
      all_goals exact only_bind (only_a2b _ _ _ _) fun _ _ => only_pure _

theorem only_b64 (s : Str) : Only armorErrors (b64decode s) := only_ite (only_a2b _ _ _ _) (only_error (by decide))

theorem only_armor (text : Str) : Only armorErrors (fromAscii text) := by
  unfold fromAscii armorFromLines
  refine only_bind (only_skipBlank _) fun p _ => ?_
  dsimp only
  split
  · exact only_error (by decide)
  · refine only_bind (only_headerLoop _ _) fun _ _ => only_bind (only_dataLoop _) fun _ _ => only_bind (only_b64 _) fun _ _ => only_bind (only_b64 _) fun _ _ =>
      only_bind (only_idx (by decide) _ _) fun _ _ => only_bind (only_idx (by decide) _ _) fun _ _ => only_bind (only_idx (by decide) _ _) fun _ _ =>
      only_ite (only_error (by decide)) ?_
    split
    · exact only_error (by decide)
    · exact only_ite (only_error (by decide)) (only_pure _)

/-! ### packets -/

theorem only_packets (data : Bytes) : Only [.indexError] (parseBinaryPacketData data) := by
  have key : ∀ (fuel off : Nat), Only [.diverges, .indexError] (parseLoop data fuel off) := by
    intro fuel
    induction fuel with
    | zero => intro off; exact only_ite (only_error (by decide)) (only_ok _)
    | succ n ih =>
      intro off
      refine only_ite (only_bind ?_ fun p _ => only_bind (ih p.1) fun _ _ => only_pure _) (only_ok _)
      intro e h
      have := (C11_parser_terminates data off).2.2 e h
      rw [this]; decide
  exact only_noDiv (C11_parser_terminates data 0).2.1 (key _ _)

theorem only_readOrd (fh : Bytes) : Only streamErrors (readOrd fh) := by
  unfold readOrd; split
  · exact only_ok _
  · exact only_error (by decide)

theorem only_stream (fh : Bytes) : Only streamErrors (parseBinaryPacketStream fh) := by
  have hn : ∀ fh : Bytes, Only streamErrors (newPacketLengthFromStream fh) := fun fh =>
    only_bind (only_readOrd fh) fun _ _ => only_ite (only_pure _) (only_ite (only_bind (only_readOrd _) fun _ _ => only_pure _)
      (only_ite (only_bind (only_int (by decide) _ _ _) fun _ _ => only_pure _) (only_pure _)))
  have ho : ∀ fh : Bytes, Only streamErrors (oldPacketLengthFromStream fh) := fun fh =>
    only_bind (only_readOrd fh) fun _ _ => only_ite (only_bind (only_readOrd _) fun _ _ => only_pure _) (only_ite (only_bind (only_int (by decide) _ _ _) fun _ _ => only_pure _)
      (only_ite (only_bind (only_int (by decide) _ _ _) fun _ _ => only_pure _) (only_error (by decide))))
  have h1 : ∀ (fuel : Nat) (fh : Bytes) (t : Option Nat) (d : Bytes), Only (.diverges :: streamErrors) (streamLoop fuel fh t d) := by
    intro fuel
    induction fuel with
    | zero => intro fh t d; exact only_error (by decide)
    | succ n ih =>
      intro fh t d
      unfold streamLoop
      refine only_bind (only_mono (only_readOrd fh) (by decide)) fun p _ => ?_
      dsimp only
      refine only_ite (only_error (by decide)) (only_ite (only_bind (only_mono (hn _) (by decide)) fun q _ => ?_) (only_bind (only_mono (ho _) (by decide)) fun _ _ => only_ok _))
      split
      · exact ih _ _ _
      · exact only_ok _
  have h2 : ∀ (fuel : Nat) (fh : Bytes), Only (.diverges :: streamErrors) (parseStreamLoop fuel fh) := by
    intro fuel
    induction fuel with
    | zero => intro fh; exact only_ite (only_ok _) (only_error (by decide))
    | succ n ih =>
      intro fh
      exact only_ite (only_ok _) (only_bind (h1 _ _ _ _) fun p _ => only_bind (ih p.2) fun _ _ => only_pure _)
  exact only_noDiv (C11_stream_terminates fh).2.1 (h2 _ _)

/-! ### signatures -/

theorem only_utf8 {S : List PyErr} (h : PyErr.unicodeError ∈ S) (d : Bytes) : Only S (utf8DecodeStrict d) :=
  only_mapM _ fun a _ => by
    cases a
    · exact only_error h
    · exact only_ok _

theorem only_plain (ty : Nat) (d : Bytes) : Only signatureErrors (parsePlain ty d) := by
  have hi : PyErr.indexError ∈ signatureErrors := by decide
  have ha : PyErr.assertionError ∈ signatureErrors := by decide
  have ht : Only signatureErrors (readTime d) := only_bind (only_assert ha _) fun _ _ => only_int hi _ _ _
  have hb : Only signatureErrors (readBool d) := only_bind (only_assert ha _) fun _ _ => only_bind (only_idx hi _ _) fun _ _ =>
    only_bind (only_assert ha _) fun _ _ => only_pure _
  have hf : Only signatureErrors (readFirst d) := only_bind (only_assert ha _) fun _ _ => only_idx hi _ _
  have hu : Only signatureErrors (readUri d) := only_bind (only_assert ha _) fun _ _ => only_pure _
  have hs : Only signatureErrors (utf8DecodeStrict d) := only_utf8 (by decide) d
  unfold parsePlain
  split <;> try first
    | exact only_ok _
    | exact only_bind ht fun _ _ => only_pure _
    | exact only_bind hb fun _ _ => only_pure _
    | exact only_bind hf fun _ _ => only_pure _
    | exact only_bind hu fun _ _ => only_pure _
    | exact only_bind hs fun _ _ => only_pure _
  · exact only_bind (only_assert ha _) fun _ _ => only_bind (only_idx hi _ _) fun _ _ => only_bind (only_idx hi _ _) fun _ _ => only_pure _
  · exact only_bind (only_assert ha _) fun _ _ => only_bind (only_assert ha _) fun _ _ => only_pure _
  · exact only_bind (only_idx hi _ _) fun _ _ => only_bind (only_idx hi _ _) fun _ _ => only_bind (only_hex hi ha _ _ _) fun _ _ => only_pure _
  · exact only_bind (only_assert ha _) fun _ _ => only_error (by decide)
  · exact only_bind (only_assert ha _) fun _ _ => only_bind (only_hex hi ha _ _ _) fun _ _ => only_pure _
  · exact only_bind (only_assert ha _) fun _ _ => only_bind (only_assert ha _) fun _ _ => only_bind (only_idx hi _ _) fun _ _ =>
      only_bind (only_assert ha _) fun _ _ => only_bind (only_int hi _ _ _) fun _ _ =>
      only_bind (only_int hi _ _ _) fun _ _ => only_bind (only_assert ha _) fun _ _ => only_pure _
  · exact only_bind (only_idx hi _ _) fun _ _ => only_pure _
  · refine only_bind (only_assert ha _) fun _ _ => only_bind (only_idx hi _ _) fun _ _ => only_bind (only_idx hi _ _) fun _ _ =>
      only_bind ?_ fun _ _ => only_bind (only_hex hi ha _ _ _) fun _ _ => only_pure _
    unfold targetLength
    split
    · exact only_ok _
    · exact only_bind (only_assert ha _) fun _ _ => only_pure _

theorem only_mpiLoop (d : Bytes) : ∀ (fuel o : Nat), Only [.diverges, .indexError] (mpiLoop d fuel o)
  | 0, o => only_ite (only_error (by decide)) (only_ok _)
  | n + 1, o => only_ite (only_bind (only_mpi (by decide) _ _) fun p _ => only_bind (only_mpiLoop d n p.2) fun _ _ => only_pure _) (only_ok _)

theorem only_sigTail (d : Bytes) (o : Nat) : Only signatureErrors (sigTail d o) :=
  only_bind (only_mono (only_noDiv (mpiLoop_fuel d d.length (o + 2) (by omega)) (only_mpiLoop d _ _)) (by decide)) fun _ _ => only_pure _

theorem only_subHeader (d : Bytes) (o : Nat) : Only signatureErrors (subHeader d o) :=
  only_bind (only_newLength (by decide) _ _) fun _ _ => only_bind (only_assert (by decide) _) fun _ _ => only_bind (only_idx (by decide) _ _) fun _ _ => only_pure _

theorem only_sig (data : Bytes) : Only signatureErrors (parseSig data) := by
  have hi : PyErr.indexError ∈ signatureErrors := by decide
  suffices h : ∀ n, ∀ data : Bytes, data.length ≤ n → Only signatureErrors (parseSig data) from h data.length data (Nat.le_refl _)
  intro n
  induction n using Nat.strongRecOn with
  | ind n ih =>
    intro data hn
    have hsubs : ∀ k off stop, data.length - off ≤ k → Only signatureErrors (parseSubs data off stop) := by
      intro k
      induction k with
      | zero =>
        intro off stop hk
        rw [parseSubs_eq]
        split
        · cases hs : subHeader data off with
          | error e => intro e' h; cases h; exact only_subHeader data off e hs
          | ok r =>
            obtain ⟨ty, cr, sub, off'⟩ := r
            have := subHeader_progress hs
            omega
        · exact only_ok _
      | succ k ihk =>
        intro off stop hk
        rw [parseSubs_eq]
        split
        · cases hs : subHeader data off with
          | error e => intro e' h; cases h; exact only_subHeader data off e hs
          | ok r =>
            obtain ⟨ty, cr, sub, off'⟩ := r
            have hp := subHeader_progress hs
            dsimp only
            refine only_bind ?_ fun _ _ => only_bind (ihk off' stop (by omega)) fun _ _ => only_pure _
            unfold readSub
            split
            · exact only_bind (ih sub.length (by omega) sub (Nat.le_refl _)) fun _ _ => only_pure _
            · exact only_bind (only_plain _ _) fun _ _ => only_pure _
        · exact only_ok _
    have hs : ∀ off stop, Only signatureErrors (parseSubs data off stop) := fun off stop => hsubs _ off stop (Nat.le_refl _)
    rw [parseSig_eq]
    refine only_bind (only_idx hi _ _) fun v _ => ?_
    split
    · unfold parseSigV3
      refine only_bind (only_idx hi _ _) fun _ _ => only_ite (only_error (by decide)) ?_
      exact only_bind (only_idx hi _ _) fun _ _ => only_bind (only_int hi _ _ _) fun _ _ =>
        only_bind (only_hex_even hi _ _ _ rfl) fun _ _ => only_bind (only_idx hi _ _) fun _ _ =>
        only_bind (only_idx hi _ _) fun _ _ => only_bind (only_sigTail _ _) fun _ _ => only_pure _
    · split
      · exact only_bind (only_idx hi _ _) fun _ _ => only_bind (only_idx hi _ _) fun _ _ => only_bind (only_idx hi _ _) fun _ _ =>
          only_bind (only_int hi _ _ _) fun _ _ => only_bind (hs _ _) fun _ _ => only_bind (only_int hi _ _ _) fun _ _ =>
          only_bind (hs _ _) fun _ _ => only_bind (only_sigTail _ _) fun _ _ => only_pure _
      · exact only_error (by decide)

/-! ### keys -/

theorem only_pubKey (d : Bytes) : Only [.indexError, .valueError, .notImplemented] (parsePubKey d) := by
  unfold parsePubKey readDays
  refine only_bind (only_idx (by decide) _ _) fun _ _ => only_bind (only_int (by decide) _ _ _) fun _ _ => only_bind
    (only_ite (only_bind (only_int (by decide) _ _ _) fun _ _ => only_pure _) (only_ite (only_pure _) (only_error (by decide)))) fun _ _ => only_bind (only_idx (by decide) _ _) fun _ _ => ?_
  have hm : ∀ o, Only [.indexError, .valueError, .notImplemented] (mpiToInt d o) := fun o => only_mpi (by decide) _ _
  exact only_ite (only_bind (hm _) fun _ _ => only_bind (hm _) fun _ _ => only_pure _)
    (only_ite (only_bind (hm _) fun _ _ => only_bind (hm _) fun _ _ => only_bind (hm _) fun _ _ => only_pure _)
      (only_ite (only_bind (hm _) fun _ _ => only_bind (hm _) fun _ _ => only_bind (hm _) fun _ _ => only_bind (hm _) fun _ _ => only_pure _) (only_error (by decide))))

theorem only_s2k (sym : Nat) (d : Bytes) (o : Nat) : Only [.indexError, .valueError, .assertionError] (parseS2k sym d o) := by
  unfold parseS2k
  have hi : ∀ o, Only [.indexError, .valueError, .assertionError] (idx d o) := fun o => only_idx (by decide) _ _
  refine only_bind (hi _) fun _ _ => only_ite (only_bind (hi _) fun _ _ => only_pure _) (only_ite (only_bind (hi _) fun _ _ => only_pure _)
    (only_ite (only_bind (hi _) fun _ _ => only_bind (hi _) fun _ _ => only_pure _) (only_ite (only_bind (hi _) fun _ _ => only_ite (only_error (by decide))
      (only_bind (hi _) fun _ _ => only_ite (only_pure _) (only_ite (only_bind (hi _) fun _ _ => only_bind (only_hex (by decide) (by decide) _ _ _) fun _ _ => only_pure _)
        (only_error (by decide))))) (only_error (by decide)))))

theorem only_secKey (d : Bytes) : Only keyErrors (parseSecKey d) := by
  refine only_bind (only_mono (only_pubKey d) (by decide)) fun p _ => ?_
  unfold parseSecretPart secretTail
  refine only_bind (only_idx (by decide) _ _) fun _ _ => only_ite (only_error (by decide)) (only_ite (only_bind (only_idx (by decide) _ _) fun _ _ =>
    only_bind (only_mono (only_s2k _ _ _) (by decide)) fun q _ => ?_) (only_ite (only_error (by decide)) (only_error (by decide))))
  obtain ⟨s, o⟩ := q
  dsimp only
  cases blockLengths _ with
  | none => exact only_error (by decide)
  | some bl => exact only_ok _

theorem only_attrs (d : Bytes) : Only keyErrors (attrsParse d) := by
  have hi : ∀ (d : Bytes) o, Only keyErrors (idx d o) := fun d o => only_idx (by decide) _ _
  have him : ∀ b, Only keyErrors (imageParse b) := fun b => only_bind (hi _ _) fun _ _ => only_bind (hi _ _) fun _ _ => only_bind (hi _ _) fun _ _ =>
    only_ite (only_ite (only_error (by decide)) (only_bind (hi _ _) fun _ _ => only_ite (only_error (by decide)) (only_pure _))) (only_error (by decide))
  have ha : ∀ o, Only keyErrors (attrFromData d o) := fun o => only_bind (only_newLength (by decide) _ _) fun p _ => only_ite (only_error (by decide))
    (only_bind (hi _ _) fun _ _ => only_ite (only_bind (him _) fun _ _ => only_pure _) (only_pure _))
  have hl : ∀ (fuel o : Nat), Only (.diverges :: keyErrors) (attrsLoop d fuel o) := by
    intro fuel
    induction fuel with
    | zero => intro o; exact only_ite (only_error (by decide)) (only_ok _)
    | succ n ih => intro o; exact only_ite (only_bind (only_mono (ha _) (by decide)) fun p _ => only_bind (ih p.2) fun _ _ => only_pure _) (only_ok _)
  exact only_noDiv (C51_terminates d) (hl _ _)

theorem only_packet (p : RawPacket) : Only keyErrors (readPacket p) := by
  unfold readPacket readBody
  refine only_bind ?_ fun _ _ => only_pure _
  split
  · exact only_bind (only_mono (only_pubKey _) (by decide)) fun _ _ => only_pure _
  split
  · exact only_bind (only_secKey _) fun _ _ => only_pure _
  split
  · exact only_bind (only_mono (only_sig _) (by decide)) fun _ _ => only_pure _
  split
  · exact only_pure _
  split
  · exact only_bind (only_attrs _) fun _ _ => only_pure _
  split
  · exact only_bind (only_bind (only_idx (by decide) _ _) fun _ _ => only_ite (only_bind (only_idx (by decide) _ _) fun _ _ => only_ite (only_error (by decide)) (only_pure _)) (only_pure _)) fun _ _ => only_pure _
  · exact only_pure _

theorem only_validate (secret : Bool) (ps : List KBody) : Only keyErrors (validateKey secret ps) := by
  have hO : PyErr.pgp "InvalidKeyPacketOrder" ∈ keyErrors := by decide
  have hT : PyErr.pgp "InvalidKeyPacketType" ∈ keyErrors := by decide
  have hI : PyErr.indexError ∈ keyErrors := by decide
  have hb : ∀ l t, Only keyErrors (onlyBefore l t) := fun l t => only_ite (only_ok _) (only_error hO)
  have hc : ∀ version before this after, Only keyErrors (checkKeyPacket secret version before this after) := by
    intro version before this after
    unfold checkKeyPacket
    refine only_ite (only_ite (only_error hO) (only_ok _)) (only_ite ?_ (only_ite (hb _ _) (only_ite (hb _ _) (only_ite ?_ (only_ite ?_ (only_error hT))))))
    · split
      · exact only_ite (hb _ _) (only_ite (only_ite (only_error hO) (only_ite (only_error hO) (only_ok _))) (only_ite (hb _ _) (only_ite (only_ite (only_error hO) (only_ok _))
          (only_ite (only_ite (only_error hO) (only_ok _)) (only_error hT)))))
      · exact only_error hI
    · unfold checkSubkey
      refine only_ite (only_error hT) ?_
      split
      · exact only_error hI
      · exact only_ite (only_error hO) (only_ok _)
    · split
      · exact only_ite (only_error hO) (only_ok _)
      · exact only_error hI
  have hl : ∀ version rest before, Only keyErrors (validateLoop secret version before rest) := by
    intro version rest
    induction rest with
    | nil => intro before; exact only_ok _
    | cons p rest ih => intro before; exact only_bind (hc _ _ _ _) fun _ _ => ih _
  unfold validateKey
  split
  · exact only_error hI
  · exact only_ite (only_error hO) (hl _ _ _)

theorem only_takeAttrs (magic : Bytes → Str) : ∀ (fuel : Nat) (ps : List KPacket), Only keyErrors (takeAttrs magic fuel ps) := by
  intro fuel
  induction fuel with
  | zero => intro ps; unfold takeAttrs; exact only_ok _
  | succ n ih =>
    intro ps
    unfold takeAttrs
    split
    · rename_i h; cases h
      refine only_bind (only_mapM _ fun a _ => ?_) fun _ _ => only_bind (ih _) fun _ _ => only_pure _
      cases a
      · exact only_error (by decide)
      · exact only_ok _
    · exact only_ok _

theorem only_key (magic : Bytes → Str) (data : Bytes) : Only keyErrors (readKey magic data) := by
  refine only_bind (only_mono (only_packets data) (by decide)) fun rs _ => only_bind (only_mapM _ fun p _ => only_packet p) fun ps _ => only_bind ?_ fun c _ => ?_
  · unfold classOf
    split
    · exact only_error (by decide)
    · exact only_ite (only_ok _) (only_ite (only_ok _) (only_error (by decide)))
  · unfold TKey.fromPackets
    refine only_bind (only_validate _ _) fun _ _ => ?_
    split
    · exact only_bind (only_takeAttrs magic _ _) fun _ _ => only_pure _
    · exact only_error (by decide)

/-! ### messages -/

theorem only_mbody (accept : RawPacket → Py Unit) (ha : ∀ p e, accept p = .error e → e ∈ messageErrors) (p : RawPacket) : Only messageErrors (parseMBody accept p) := by
  have hi : ∀ (d : Bytes) o, Only messageErrors (idx d o) := fun d o => only_idx (by decide) _ _
  unfold parseMBody
  refine only_ite' (only_bind ?_ fun _ _ => only_pure _) fun h1 => only_ite' (only_bind (only_mono (only_sig _) (by decide)) fun _ _ => only_pure _) fun h2 => only_ite' (only_bind ?_ fun _ _ => only_pure _)
    fun h3 => only_ite' (only_bind ?_ fun _ _ => only_pure _) fun h4 => only_ite' (only_bind ?_ fun _ _ => only_pure _) fun h5 => only_ite' (only_ok _) fun h6 => only_ite' (only_bind ?_ fun _ _ => only_pure _)
    fun h7 => only_ite' (only_bind ?_ fun _ _ => only_pure _) fun h8 => ?_
  · exact only_bind (hi _ _) fun _ _ => only_bind (only_hex_even (by decide) _ _ _ rfl) fun _ _ => only_bind (hi _ _) fun _ _ => only_pure _
  · refine only_bind (hi _ _) fun _ _ => only_bind (hi _ _) fun _ _ => only_bind (only_mono (only_s2k _ _ _) (by decide)) fun q _ => ?_
    obtain ⟨s, o⟩ := q
    dsimp only
    cases keyLengths _ with
    | none => exact only_error (by decide)
    | some n => exact only_pure _
  · exact only_bind (hi _ _) fun _ _ => only_bind (hi _ _) fun _ _ => only_bind (hi _ _) fun _ _ => only_bind (hi _ _) fun _ _ =>
      only_bind (only_hex_even (by decide) _ _ _ rfl) fun _ _ => only_bind (hi _ _) fun _ _ => only_pure _
  · exact only_bind (hi _ _) fun _ _ => only_pure _
  · refine only_bind (hi _ _) fun _ _ => only_bind (hi _ _) fun _ _ => only_bind (only_int (by decide) _ _ _) fun _ _ => only_bind ?_ fun _ _ => only_pure _
    exact only_ite (only_ok _) (only_ite (only_bind (only_utf8 (by decide) _) fun _ _ => only_pure _) (only_ok _))
  · exact only_bind (hi _ _) fun _ _ => only_pure _
  · split
    · exact only_bind (ha p) fun _ _ => only_pure _
    · rename_i h9
      exact absurd (by simp only [List.mem_cons, List.not_mem_nil, or_false]; omega) h9

theorem only_encrypted (keys : List SessKey) (b : MBody) : Only messageErrors (encryptedMessage keys b) := by
  cases b <;> first | exact only_ok _ | exact only_error (by decide)

theorem only_encryptedLoop : ∀ (ps : List MPacket) (keys : List SessKey) (p : MPacket), Only messageErrors (encryptedLoop keys p ps)
  | [], keys, p => by unfold encryptedLoop; split <;> exact only_encrypted _ _
  | q :: qs, keys, p => by
    unfold encryptedLoop; split
    · exact only_encryptedLoop qs _ _
    · exact only_encrypted _ _

theorem only_encryptedFrom (p : MPacket) (ps : List MPacket) : Only messageErrors (encryptedFromPackets p ps) := only_ite (only_encryptedLoop _ _ _) (only_encryptedLoop _ _ _)

theorem only_literal (l : Literal) : Only messageErrors (literalMessage l) := by
  unfold literalMessage; split
  · exact only_ok _
  · exact only_error (by decide)

theorem only_single (p : MPacket) : Only messageErrors (openSingle p) := by
  unfold openSingle
  split <;> first | exact only_encryptedFrom _ _ | exact only_ok _ | exact only_literal _ | exact only_error (by decide)

theorem only_signed : ∀ (ps : List MPacket) (op : Bool) (sigs : List (HeaderFormat × Sig)) (m : Option Msg), Only messageErrors (signedLoop op sigs m ps)
  | [], op, sigs, m => by unfold signedLoop; exact only_ok _
  | p :: ps, op, sigs, m => by
    unfold signedLoop
    split
    · exact only_signed ps _ _ _
    · exact only_signed ps _ _ _
    · exact only_error (by decide)
    · exact only_bind (only_single _) fun _ _ => only_signed ps _ _ _
    · exact only_error (by decide)

theorem only_open (ps : List MPacket) : Only messageErrors (openMessage ps) := by
  unfold openMessage
  split
  · exact only_error (by decide)
  · split <;> first | exact only_encryptedFrom _ _ | exact only_signed _ _ _ _ | exact only_ok _ | exact only_literal _ | exact only_error (by decide)

theorem only_message (accept : RawPacket → Py Unit) (ha : ∀ p e, accept p = .error e → e ∈ messageErrors) (data : Bytes) : Only messageErrors (readMessage accept data) :=
  only_bind (only_mono (only_packets data) (by decide)) fun _ _ => only_bind (only_mapM _ fun p _ => only_bind (only_mbody accept ha p) fun _ _ => only_pure _) fun _ _ => only_open _

theorem only_input {S : List PyErr} (h : ∀ e ∈ [.indexError, .valueError, .typeError, .unicodeError], e ∈ S) (flag : Bool) (d : FileData) : Only S (inputOctets flag d) := by
  refine only_mono ?_ h
  cases d with
  | octets b =>
    exact only_ite (only_bind (only_ite (only_ok _) (only_error (by decide))) fun _ _ => only_bind (only_mono (only_armor _) (by decide)) fun _ _ => only_pure _)
      (only_ite (only_error (by split <;> decide)) (only_ok _))
  | text s => exact only_ite (only_bind (only_mono (only_armor _) (by decide)) fun _ _ => only_pure _) (only_ite (only_ok _) (only_error (by decide)))

/-! ### The theorems -/

/-- C117: armored text that is malformed in any way raises ValueError or IndexError, and both happen. -/
theorem C117_armor_errors (e : PyErr) : (∃ text, fromAscii text = .error e) ↔ e ∈ armorErrors := by
  refine ⟨fun ⟨t, h⟩ => only_armor t e h, fun h => ?_⟩
  simp only [armorErrors, List.mem_cons, List.not_mem_nil, or_false] at h
  rcases h with rfl | rfl
  · exact ⟨['x'], by decide +kernel⟩
  · exact ⟨[], rfl⟩

example : fromAscii "-----BEGIN PGP MESSAGE-----".toList = .error .indexError := by decide +kernel

/-- C117: octets that are no packets raise IndexError, whatever is wrong with them. -/
theorem C117_packet_errors (e : PyErr) : (∃ data, parseBinaryPacketData data = .error e) ↔ e = .indexError := by
  refine ⟨fun ⟨d, h⟩ => by simpa using only_packets d e h, fun h => ?_⟩
  subst h
  exact ⟨[0xc6], by decide +kernel⟩

/-- C117: a stream that is no packets raises TypeError (where octets are missing), IndexError or ValueError. -/
theorem C117_stream_errors (e : PyErr) : (∃ fh, parseBinaryPacketStream fh = .error e) ↔ e ∈ streamErrors := by
  refine ⟨fun ⟨d, h⟩ => only_stream d e h, fun h => ?_⟩
  simp only [streamErrors, List.mem_cons, List.not_mem_nil, or_false] at h
  rcases h with rfl | rfl | rfl
  · exact ⟨[0xc6], by decide +kernel⟩
  · exact ⟨[0xc6, 255], by decide +kernel⟩
  · exact ⟨[0x83], by decide +kernel⟩

theorem sub_error (data : Bytes) (n : Nat) (e : PyErr) (h0 : idx data 0 = .ok 4) (h1 : ∃ a, idx data 1 = .ok a) (h2 : ∃ a, idx data 2 = .ok a) (h3 : ∃ a, idx data 3 = .ok a)
    (h4 : shortToInt data 4 = .ok n) (h5 : parseSubs data 6 (6 + n) = .error e) : parseSig data = .error e := by
  obtain ⟨a, h1⟩ := h1
  obtain ⟨b, h2⟩ := h2
  obtain ⟨c, h3⟩ := h3
  rw [parseSig_eq, h0]
  simp only [except_bind_ok, h1, h2, h3, h4, h5]
  rfl

/-- A revocation key subpacket. -/
theorem sig_type_error : parseSig ([4, 0, 1, 2, 0, 24, 23, 12] ++ List.replicate 22 0) = .error .typeError :=
  sub_error _ 24 _ rfl ⟨_, rfl⟩ ⟨_, rfl⟩ ⟨_, rfl⟩ rfl (by rw [parseSubs_eq]; rfl)

/-- A time of three octets. -/
theorem sig_assertion : parseSig [4, 0, 1, 2, 0, 5, 4, 2, 0, 0, 0] = .error .assertionError :=
  sub_error _ 5 _ rfl ⟨_, rfl⟩ ⟨_, rfl⟩ ⟨_, rfl⟩ rfl (by rw [parseSubs_eq]; rfl)

theorem bad_utf8 : utf8DecodeStrict [255] = .error .unicodeError := by
  have : utf8Units [255] = [none] := by rw [utf8Units]; rw [if_neg (by decide)]; rw [utf8Units]; rfl
  unfold utf8DecodeStrict
  rw [this]; rfl

/-- A signer's user id that is not UTF-8. -/
theorem sig_unicode : parseSig [4, 0, 1, 2, 0, 3, 2, 28, 255] = .error .unicodeError := by
  refine sub_error _ 3 _ rfl ⟨_, rfl⟩ ⟨_, rfl⟩ ⟨_, rfl⟩ rfl ?_
  have h : readSub 28 false [255] = .error .unicodeError := by
    unfold readSub
    rw [if_neg (by decide)]
    show ((parsePlain 28 [255]).bind _ : Py Sub) = _
    have : parsePlain 28 [255] = (do return .userId (← utf8DecodeStrict [255])) := rfl
    rw [this, bad_utf8]
    rfl
  rw [parseSubs_eq]
  show ((readSub 28 false [255]).bind _ : Py _) = _
  rw [h]; rfl

/-- C117: the content of a signature packet that is malformed in any way, to any depth of signatures in it. -/
theorem C117_signature_errors (e : PyErr) : (∃ data, parseSig data = .error e) ↔ e ∈ signatureErrors := by
  refine ⟨fun ⟨d, h⟩ => only_sig d e h, fun h => ?_⟩
  simp only [signatureErrors, List.mem_cons, List.not_mem_nil, or_false] at h
  rcases h with rfl | rfl | rfl | rfl | rfl
  · exact ⟨[], by rw [parseSig_eq]; rfl⟩
  · exact ⟨[5], by rw [parseSig_eq]; rfl⟩
  · exact ⟨_, sig_assertion⟩
  · exact ⟨_, sig_type_error⟩
  · exact ⟨_, sig_unicode⟩

theorem key_first_error (magic : Bytes → Str) (data : Bytes) (p : RawPacket) (e : PyErr) (h1 : parseBinaryPacketData data = .ok [p]) (h2 : p.type = 2) (h3 : parseSig p.content = .error e) :
    readKey magic data = .error e := by
  have : readPacket p = .error e := by
    unfold readPacket readBody
    rw [dif_neg (by omega), dif_neg (by omega), dif_pos h2, h3]
    rfl
  unfold readKey
  rw [h1]
  simp only [except_bind_ok, List.mapM_cons, this]
  rfl

/-- C117: whatever octets are given to be read as a key, reading ends, with a key or with one of these exceptions; each of them happens. -/
theorem C117_key_errors (magic : Bytes → Str) (e : PyErr) : (∃ data, readKey magic data = .error e) ↔ e ∈ keyErrors := by
  refine ⟨fun ⟨d, h⟩ => only_key magic d e h, fun h => ?_⟩
  simp only [keyErrors, List.mem_cons, List.not_mem_nil, or_false] at h
  rcases h with rfl | rfl | rfl | rfl | rfl | rfl | rfl | rfl | rfl | rfl
  · exact ⟨[], rfl⟩
  · exact ⟨[0xca, 0], rfl⟩
  · exact ⟨_, key_first_error magic [0xc2, 11, 4, 0, 1, 2, 0, 5, 4, 2, 0, 0, 0] _ _ rfl rfl sig_assertion⟩
  · exact ⟨_, key_first_error magic ([0xc2, 30] ++ ([4, 0, 1, 2, 0, 24, 23, 12] ++ List.replicate 22 0)) _ _ rfl rfl sig_type_error⟩
  · exact ⟨_, key_first_error magic [0xc2, 9, 4, 0, 1, 2, 0, 3, 2, 28, 255] _ _ rfl rfl sig_unicode⟩
  · exact ⟨[0xc6, 6, 4, 0, 0, 0, 0, 99], rfl⟩
  · exact ⟨[0xc5, 13, 4, 0, 0, 0, 0, 1, 0, 1, 1, 0, 1, 1, 0], rfl⟩
  · exact ⟨[0xc6, 12, 4, 0, 0, 0, 0, 1, 0, 1, 1, 0, 1, 1, 0xd1, 2, 1, 99], rfl⟩
  · exact ⟨[0xc6, 12, 4, 0, 0, 0, 0, 1, 0, 1, 1, 0, 1, 1, 0xc6, 12, 4, 0, 0, 0, 0, 1, 0, 1, 1, 0, 1, 1], rfl⟩
  · exact ⟨[0xc6, 12, 4, 0, 0, 0, 0, 1, 0, 1, 1, 0, 1, 1, 0xca, 0], rfl⟩

/-- C117: the same with detection of armor, for text and for octets. -/
theorem C117_key_file_errors (magic : Bytes → Str) (armored : Bool) (d : FileData) (e : PyErr) (h : readKeyAny magic armored d = .error e) : e ∈ keyErrors := by
  have : Only keyErrors (readKeyAny magic armored d) := only_bind (only_input (by decide) _ _) fun _ _ => only_key magic _
  exact this e h

example (magic : Bytes → Str) := C117_key_file_errors magic false (.octets []) .indexError rfl

theorem message_first_error (accept : RawPacket → Py Unit) (data : Bytes) (p : RawPacket) (e : PyErr) (h1 : parseBinaryPacketData data = .ok [p])
    (h2 : p.type = 2) (h3 : parseSig p.content = .error e) : readMessage accept data = .error e := by
  have : parseMBody accept p = .error e := by
    unfold parseMBody
    rw [if_neg (by omega), if_pos h2, h3]
    rfl
  unfold readMessage
  rw [h1]
  simp only [except_bind_ok, List.mapM_cons, parseMPacket, this]
  rfl

/-- C117: the same for messages; `accept` reads the packets that are no part of messages. -/
theorem C117_message_errors (accept : RawPacket → Py Unit) (ha : ∀ p e, accept p = .error e → e ∈ messageErrors) (hok : accept ⟨.new, 10, [0x50, 0x47, 0x50]⟩ = .ok ()) (e : PyErr) :
    (∃ data, readMessage accept data = .error e) ↔ e ∈ messageErrors := by
  refine ⟨fun ⟨d, h⟩ => only_message accept ha d e h, fun h => ?_⟩
  simp only [messageErrors, List.mem_cons, List.not_mem_nil, or_false] at h
  rcases h with rfl | rfl | rfl | rfl | rfl | rfl | rfl
  · exact ⟨[], rfl⟩
  · exact ⟨[0xc3, 3, 4, 9, 2], rfl⟩
  · exact ⟨_, message_first_error accept [0xc2, 11, 4, 0, 1, 2, 0, 5, 4, 2, 0, 0, 0] _ _ rfl rfl sig_assertion⟩
  · exact ⟨[0xc3, 4, 4, 99, 0, 2], rfl⟩
  · exact ⟨_, message_first_error accept [0xc2, 9, 4, 0, 1, 2, 0, 3, 2, 28, 255] _ _ rfl rfl sig_unicode⟩
  · refine ⟨[0xca, 3, 0x50, 0x47, 0x50], ?_⟩
    have h1 : parseBinaryPacketData [0xca, 3, 0x50, 0x47, 0x50] = .ok [⟨.new, 10, [0x50, 0x47, 0x50]⟩] := by decide +kernel
    have h2 : parseMBody accept ⟨.new, 10, [0x50, 0x47, 0x50]⟩ = (accept ⟨.new, 10, [0x50, 0x47, 0x50]⟩ >>= fun _ => return .other ⟨10, by decide⟩) := rfl
    unfold readMessage
    rw [h1]
    simp only [except_bind_ok, List.mapM_cons, List.mapM_nil, parseMPacket, h2, hok]
    rfl
  · exact ⟨[0xc9, 0], rfl⟩

example := C117_message_errors (fun p => if p.type = 10 then .ok () else .error .indexError) (by intro p e h; split at h <;> cases h; decide) rfl

/-- C117: and with detection of armor. -/
theorem C117_message_file_errors (accept : RawPacket → Py Unit) (ha : ∀ p e, accept p = .error e → e ∈ messageErrors) (armored : Bool) (d : FileData) (e : PyErr)
    (h : readMessageAny accept armored d = .error e) : e ∈ messageErrors := by
  have : Only messageErrors (readMessageAny accept armored d) := only_bind (only_input (by decide) _ _) fun _ _ => only_message accept ha _
  exact this e h

example := C117_message_file_errors (fun _ => .ok ()) (fun _ _ h => nomatch h) false (.octets []) .indexError rfl

/-- C117 fails: exceptions other than the library's and ValueError come out of reading keys, messages and armor. -/
theorem C117_expected_refuted (magic : Bytes → Str) (accept : RawPacket → Py Unit) : (∃ text e, fromAscii text = .error e ∧ ¬ Expected e) ∧
    (∀ e ∈ [.indexError, .assertionError, .typeError, .notImplemented, .unboundLocal, .attributeError], ¬ Expected e ∧ ∃ data, readKey magic data = .error e) ∧
    ∃ data e, readMessage accept data = .error e ∧ ¬ Expected e := by
  have hx : ¬ Expected .indexError := by unfold Expected; simp
  refine ⟨⟨[], _, rfl, hx⟩, fun e he => ⟨?_, (C117_key_errors magic e).mpr ?_⟩, ⟨[], _, rfl, hx⟩⟩
  · simp only [List.mem_cons, List.not_mem_nil, or_false] at he
    unfold Expected
    rcases he with rfl | rfl | rfl | rfl | rfl | rfl <;> simp
  · revert e
    decide

/-- One more level of signature around the octets. -/
def wrapSig (d : Bytes) : Bytes := [4, 0, 1, 2, 0, 1, 255] ++ intTo4byte (d.length + 1) ++ [32] ++ d ++ [0, 0, 0, 0]

theorem wrapSig_length (d : Bytes) : (wrapSig d).length = d.length + 16 := by
  unfold wrapSig
  simp only [List.length_append, List.length_cons, List.length_nil, intTo4byte_length]
  omega

theorem five_length (n : Nat) (h : n < 2 ^ 32) : NewDefinite (255 :: intTo4byte n) n := by
  have : intTo4byte n = [octet n 24, octet n 16, octet n 8, octet n 0] := rfl
  have hb : beNat (intTo4byte n) = n := by rw [intTo4byte_eq, beNat_beBytes]; exact Nat.mod_eq_of_lt (by omega)
  rw [this] at hb ⊢
  have := NewDefinite.five (octet n 24) (octet n 16) (octet n 8) (octet n 0)
  rw [hb] at this
  exact this

theorem wrapSig_parse (d : Bytes) (s : Sig) (hd : d.length + 1 < 2 ^ 32) (h : parseSig d = .ok s) : parseSig (wrapSig d) = .ok (.v4 4 0 1 2 [.embedded false s] [] [0, 0] []) := by
  have hlen := wrapSig_length d
  have hf := five_length (d.length + 1) hd
  generalize hl : (255 :: intTo4byte (d.length + 1) : Bytes) = l at hf
  have hll : l.length = 5 := by rw [← hl]; rfl
  have d0 : (wrapSig d).drop 0 = 4 :: 0 :: 1 :: 2 :: (intTo2byte 1 ++ ((l ++ [UInt8.ofNat (32 + if false then 0x80 else 0)] ++ d) ++ (intTo2byte 0 ++ [0, 0]))) := by
    rw [← hl]
    simp only [wrapSig, List.drop_zero, List.append_assoc, List.cons_append, List.nil_append]
    rfl
  generalize wrapSig d = data at *
  have d1 := drop_succ_of_drop d0
  have d2 := drop_succ_of_drop d1
  have d3 := drop_succ_of_drop d2
  have d4 := drop_succ_of_drop d3
  have d6 := drop_add_of_drop' d4 (n := 2) rfl
  have d7 := drop_add_of_drop d6
  have d8 := drop_add_of_drop' d7 (n := 2) rfl
  have hs := subHeader_write (by decide) hf d6
  have he : (l ++ [UInt8.ofNat (32 + if false then 0x80 else 0)] ++ d).length = d.length + 6 := by
    simp only [List.length_append, List.length_cons, List.length_nil, hll]; omega
  rw [he] at hs d7 d8
  simp only [Nat.zero_add, Nat.reduceAdd] at d1 d2 d3 d4 d6 d7 d8 hs
  have a4 := shortToInt_of_drop d4
  have a6 := shortToInt_of_drop d7
  rw [Nat.mod_eq_of_lt (by norm_num)] at a4 a6
  have a5 : parseSubs data 6 (6 + 1) = .ok ([.embedded false s], 6 + (d.length + 6)) := by
    rw [parseSubs_eq, if_pos (by omega), hs]
    dsimp only
    unfold readSub
    rw [if_pos rfl, h, parseSubs_eq, if_neg (by omega)]; rfl
  have a7 : parseSubs data (6 + (d.length + 6) + 2) (6 + (d.length + 6) + 2 + 0) = .ok ([], 6 + (d.length + 6) + 2) := by
    rw [parseSubs_eq, if_neg (by omega)]
  have a8 : sigTail data (6 + (d.length + 6) + 2) = .ok ([0, 0], []) := by
    unfold sigTail
    have : mpiLoop data data.length (6 + (d.length + 6) + 2 + 2) = .ok [] := by
      rw [hlen]; unfold mpiLoop; rw [if_neg (by omega)]
    rw [this, slice_of_drop (s := []) (a := [0, 0]) (by simpa using d8) (by simp)]; rfl
  rw [parseSig_eq]
  simp only [idx_of_drop d0, idx_of_drop d1, idx_of_drop d2, idx_of_drop d3, a4, a5, a6, a7, a8, except_bind_ok, except_pure]
  rw [if_neg (by decide), if_pos trivial]
  rfl

theorem plain_sig : parseSig [4, 0, 1, 2, 0, 0, 0, 0, 0, 0] = .ok (.v4 4 0 1 2 [] [] [0, 0] []) := by
  have h1 : parseSubs [4, 0, 1, 2, 0, 0, 0, 0, 0, 0] 6 (6 + 0) = .ok ([], 6) := by rw [parseSubs_eq]; rfl
  have h2 : parseSubs [4, 0, 1, 2, 0, 0, 0, 0, 0, 0] (6 + 2) (6 + 2 + 0) = .ok ([], 8) := by rw [parseSubs_eq]; rfl
  have h3 : shortToInt [4, 0, 1, 2, 0, 0, 0, 0, 0, 0] 4 = .ok 0 := rfl
  have h4 : shortToInt [4, 0, 1, 2, 0, 0, 0, 0, 0, 0] 6 = .ok 0 := rfl
  rw [parseSig_eq]
  simp only [h3, h4, h1, h2, except_bind_ok]
  rfl

theorem nested_sig : ∀ n : Nat, 10 + 16 * n < 2 ^ 32 → ∃ (data : Bytes) (s : Sig), data.length = 10 + 16 * n ∧ parseSig data = .ok s ∧ Nested n s
  | 0, _ => ⟨[4, 0, 1, 2, 0, 0, 0, 0, 0, 0], .v4 4 0 1 2 [] [] [0, 0] [], rfl, plain_sig, .zero _⟩
  | n + 1, h => by
    obtain ⟨d, s, h1, h2, h3⟩ := nested_sig n (by omega)
    exact ⟨wrapSig d, _, by rw [wrapSig_length, h1]; omega, wrapSig_parse d s (by omega) h2, .succ h3 4 0 1 2 false [.embedded false s] [] [0, 0] [] (by simp)⟩

/-- C117: signatures nested to any depth are read one level inside the other. (Python's recursion limit is not part of the model: with it, a file of a few
thousand octets of this kind raises RecursionError instead.) -/
theorem C117_nesting_unlimited (n : Nat) (h : 10 + 16 * n < 2 ^ 32) : ∃ (data : Bytes) (s : Sig), data.length = 10 + 16 * n ∧ parseSig data = .ok s ∧ Nested n s := nested_sig n h

example := C117_nesting_unlimited 1000 (by decide)

end Pgp.Props
