import Verif.Model.OpenDb
import Verif.Props.Keyring
import Verif.Props.KeyFile
/-
C99: which files can be opened as key databases.
-/
namespace Pgp.Props
open Pgp Pgp.Spec

/-- The file name has none of the two prefixes. -/
def PlainFile (name : List Char) : Prop := startsWith name "gnupg-keyring:".toList = false ∧ startsWith name "gnupg-kbx:".toList = false

theorem infix_head {x : UInt8} {w : Bytes} (hw : w.length ≤ 3) (h : isInfix (x :: w) gdbmMagic = true) :
    x = 0x13 ∨ x = 0x57 ∨ x = 0xce ∨ x = 0x9a ∧ ∀ y ∈ w.head?, y = 0xce ∨ y = 0x57 := by
  match w, hw with
  | [], _ => simp [isInfix, gdbmMagic, List.range, List.range.loop] at h; simp; tauto
  | [a], _ => simp [isInfix, gdbmMagic, List.range, List.range.loop] at h; simp; grind
  | [a, b], _ => simp [isInfix, gdbmMagic, List.range, List.range.loop] at h; simp; grind
  | [a, b, c], _ => simp [isInfix, gdbmMagic, List.range, List.range.loop] at h; simp; grind

/-- A file that starts with a key packet is not taken for a GDBM database. -/
theorem ring_not_gdbm {p : RawPacket} (ht : p.type = 6 ∨ p.type = 5) (he : Expressible p) (rest : Bytes) :
    isInfix ((packetOctets p ++ rest).take 4) gdbmMagic = false := by
  obtain ⟨w, hw⟩ : ∃ w, Packet.toBytes 1 p = .ok w := by
    obtain ⟨es, h, _⟩ := C10_parse_concat_partial [p] (by simpa using he)
    rw [List.mapM_cons] at h
    obtain ⟨w, hw, _⟩ := except_bind_eq_ok.mp h
    exact ⟨w, hw⟩
  have ho : packetOctets p = w := by simp only [packetOctets, hw]
  obtain ⟨hd, hh, rfl⟩ := (C83_packet_octets_iff p he w).mp hw
  rw [ho]
  rw [← Bool.not_eq_true]
  intro hinf
  cases hf : p.fmt with
  | new =>
    rw [hf] at hh
    obtain ⟨_, _, l, _, rfl⟩ := hh
    have := infix_head (x := UInt8.ofNat (0xc0 + p.type)) (w := ((l ++ p.content) ++ rest).take 3) (by simp) hinf
    rcases ht with ht | ht <;> rw [ht] at this <;> revert this <;> simp
  | old =>
    rw [hf] at hh
    obtain ⟨_, hn, lt, l, hl, _, rfl⟩ := hh
    have := infix_head (x := UInt8.ofNat (0x80 + 4 * p.type + lt)) (w := ((l ++ p.content) ++ rest).take 3) (by simp) hinf
    generalize hn' : p.content.length = n at hl hn
    cases hl with
    | one => rcases ht with ht | ht <;> rw [ht] at this <;> revert this <;> simp
    | two => rcases ht with ht | ht <;> rw [ht] at this <;> revert this <;> simp
    | four e he4 =>
      match l, he4 with
      | [a, b, c, d], _ =>
        rcases ht with ht | ht
        · rw [ht] at this
          rcases this with h | h | h | ⟨_, h⟩
          · exact absurd h (by decide)
          · exact absurd h (by decide)
          · exact absurd h (by decide)
          · have ha := h a (by simp)
            rw [beNat_cons] at hn
            rcases ha with rfl | rfl <;> simp at hn <;> omega
        · rw [ht] at this
          rcases this with h | h | h | ⟨h, _⟩ <;> exact absurd h (by decide)

/-- C99: an existing keyring file holding at least one key opens, with every key in it, provided its first octets do not look like those of a keybox. -/
theorem C99_opens_partial (I : PacketInfo) (haveGdbm force ro : Bool) (name : List Char) (hname : PlainFile name) (content : List Char → Option Bytes)
    (bs : List KeyBlock) (hne : bs ≠ []) (hw : ∀ b ∈ bs, b.WF I) (hc : content name = some (ringOctets bs))
    (hk : ¬ ((ringOctets bs)[4]? = some 1 ∧ ((ringOctets bs).drop 8).take 4 = "KBXf".toUTF8.toList)) :
    ∃ r, openResource I haveGdbm force ro name content = .ok r ∧ ∀ fp, r.get I fp =
      match lastMatch bs (shortId fp) with
      | none => .error .keyError
      | some b => .ok b.packets := by
  have hg : getResource name content = (.keyring, name) := by
    have hgd : isInfix ((ringOctets bs).take 4) gdbmMagic = false := by
      match bs, hne with
      | b :: rest, _ =>
        have hb := hw b (by simp)
        have e : ringOctets (b :: rest) = packetOctets b.head ++ (packetsOctets b.rest ++ ringOctets rest) := by
          simp [ringOctets, KeyBlock.octets, KeyBlock.packets, packetsOctets]
        rw [e]
        exact ring_not_gdbm hb.headType (hb.expressible _ (by simp [KeyBlock.packets])) _
    unfold getResource
    simp only [hname.1, hname.2, hc, hgd, Bool.false_eq_true, if_false]
    refine if_neg ?_
    rintro ⟨h4, h8⟩
    refine hk ⟨?_, ?_⟩
    · revert h4
      generalize ringOctets bs = d
      match d with
      | [] | [_] | [_, _] | [_, _, _] | [_, _, _, _] => simp
      | _ :: _ :: _ :: _ :: x :: l => simp
    · rw [h8]; decide +kernel
  obtain ⟨r, h1, h2⟩ := C33_open_and_get I bs hw ro
  exact ⟨r, by simp only [openResource, hg, hc, h1], h2⟩

/-- C99 (refuted): no new database can be made: a file that does not exist is not created, whether asked to or not, and one that exists but is empty is not
opened. -/
theorem C99_fresh_refuted (I : PacketInfo) (haveGdbm force ro : Bool) (name : List Char) (hname : PlainFile name) (content : List Char → Option Bytes)
    (hc : content name = none ∨ content name = some []) : Raises (openResource I haveGdbm force ro name content) := by
  rcases hc with hc | hc
  · have hg : getResource name content = (.keyring, name) := (C56_detection name content hname.1 hname.2).1 hc
    simp only [openResource, hg, hc, C33_create]
    exact ⟨_, rfl⟩
  · have hg := C56_empty_file_refuted name content hc hname.1 hname.2
    simp only [openResource, hg]
    cases haveGdbm <;> exact ⟨_, rfl⟩

/-- C99 (refuted): after the only key of a keyring has been deleted the file cannot be opened any more. -/
theorem C99_emptied_refuted (I : PacketInfo) (b : KeyBlock) (hw : b.WF I) (r : Keyring) (hr : Keyring.open I (ringOctets [b]) false = .ok r) (fp : List Char)
    (hfp : shortId b.keyId = shortId fp) (haveGdbm force ro : Bool) (name : List Char) (hname : PlainFile name) (content : List Char → Option Bytes)
    (hc : content name = some (r.delete I fp).2.file) : (r.delete I fp).1 = .ok () ∧ Raises (openResource I haveGdbm force ro name content) := by
  obtain ⟨h1, h2, _⟩ := C33_delete_last_partial I [] b (by simpa using hw) fp hfp r hr
  refine ⟨h1, C99_fresh_refuted I haveGdbm force ro name hname content (.inr ?_)⟩
  rw [hc, h2]
  rfl

/-- C99: keybox files and GDBM databases are refused: the former with ValueError, the latter with AttributeError, or with RuntimeError where the module for
them is not installed. -/
theorem C99_other_kinds_raise (I : PacketInfo) (haveGdbm force ro : Bool) (name : List Char) (content : List Char → Option Bytes) :
    ((getResource name content).1 = .keybox → openResource I haveGdbm force ro name content = .error .valueError) ∧
    ((getResource name content).1 = .gdbm → openResource I haveGdbm force ro name content = .error (if haveGdbm = true then .attributeError else .runtimeError)) := by
  unfold openResource
  rcases hg : getResource name content with ⟨k, n⟩
  refine ⟨?_, ?_⟩ <;> (rintro rfl; cases haveGdbm <;> rfl)

/-- C99: a database opened is a keyring file that exists, under the name given or, with the prefix `gnupg-keyring:`, under the rest of the name behind
`g:`. -/
theorem C99_opened (I : PacketInfo) (haveGdbm force ro : Bool) (name : List Char) (content : List Char → Option Bytes) (r : Keyring)
    (h : openResource I haveGdbm force ro name content = .ok r) :
    ∃ file d, content file = some d ∧ Keyring.open I d ro = .ok r ∧
      (file = name ∨ ∃ path, name = "gnupg-keyring:".toList ++ path ∧ file = 'g' :: ':' :: path) := by
  have key : ∀ file, (match content file with | none => Keyring.create force | some d => Keyring.open I d ro) = .ok r →
      ∃ d, content file = some d ∧ Keyring.open I d ro = .ok r := by
    intro file hf
    cases hd : content file with
    | none => rw [hd] at hf; simp only [C33_create] at hf; cases hf
    | some d => rw [hd] at hf; exact ⟨d, rfl, hf⟩
  unfold openResource at h
  rcases hg : getResource name content with ⟨k, n⟩
  rw [hg] at h
  cases k with
  | keybox => cases h
  | gdbm => cases haveGdbm <;> cases h
  | keyring =>
    obtain ⟨d, h1, h2⟩ := key n h
    refine ⟨n, d, h1, h2, ?_⟩
    unfold getResource at hg
    cases hp : startsWith name "gnupg-keyring:".toList with
    | true =>
      right
      simp only [hp, if_true, Prod.mk.injEq, true_and] at hg
      have ht : name.take 14 = "gnupg-keyring:".toList := by
        have := hp
        unfold startsWith at this
        exact eq_of_beq this
      have hs : name = "gnupg-keyring:".toList ++ name.drop 14 := by rw [← ht]; simp
      refine ⟨name.drop 14, hs, ?_⟩
      rw [← hg]
      generalize name.drop 14 = path at hs
      rw [hs]
      rfl
    | false =>
      left
      simp only [hp, Bool.false_eq_true, if_false] at hg
      split at hg
      · cases hg
      · split at hg
        · cases hg; rfl
        · split at hg
          · cases hg
          · split at hg
            · cases hg
            · cases hg; rfl

/-! ### Examples -/

private def exI : PacketInfo := ⟨fun _ => .ok (), fun p => .ok (p.content.map (fun b => Char.ofNat b.toNat))⟩

private def exBlock : KeyBlock := ⟨⟨.old, 6, List.replicate 16 66⟩, [⟨.new, 13, [65, 66]⟩], List.replicate 16 'B'⟩

private theorem exBlock_wf : exBlock.WF exI := by
  refine ⟨Or.inl rfl, rfl, ?_, ?_, fun _ _ => rfl⟩
  · intro p hp
    simp only [exBlock, List.mem_cons, List.not_mem_nil, or_false] at hp
    subst hp; decide
  · intro p hp
    simp only [exBlock, KeyBlock.packets, List.mem_cons, List.not_mem_nil, or_false] at hp
    rcases hp with rfl | rfl
    · exact Or.inr ⟨rfl, (by decide : (6 : Nat) < 16), by decide⟩
    · exact Or.inl ⟨rfl, by decide, by decide, by decide⟩

private theorem exPlainFile : PlainFile "pubring.gpg".toList := by constructor <;> decide +kernel

example : ringOctets [exBlock] = [0x98, 16] ++ List.replicate 16 66 ++ [0xcd, 2, 65, 66] := by decide +kernel
example := C99_opens_partial exI true false false "pubring.gpg".toList exPlainFile (fun _ => some (ringOctets [exBlock])) [exBlock] (by simp)
  (by simpa using exBlock_wf) rfl (by decide +kernel)
example := C99_fresh_refuted exI false true false "new.gpg".toList (by constructor <;> decide +kernel) (fun _ => none) (.inl rfl)
example (r : Keyring) (hr : Keyring.open exI (ringOctets [exBlock]) false = .ok r) := C99_emptied_refuted exI exBlock exBlock_wf r hr (List.replicate 40 'B')
  (by decide +kernel) true false false "pubring.gpg".toList exPlainFile (fun _ => some (r.delete exI (List.replicate 40 'B')).2.file) rfl
example := (C99_other_kinds_raise exI true true false "gnupg-kbx:x".toList (fun _ => none)).1 (by decide +kernel)
example : ∃ r, openResource exI true false true "gnupg-keyring:x".toList (fun n => if n = "g:x".toList then some [] else none) = .ok r := ⟨_, rfl⟩

end Pgp.Props
