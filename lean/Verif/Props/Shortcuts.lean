import Verif.Model.Shortcuts
import Verif.Props.Armor
import Verif.Props.Framing
import Verif.Spec.Keyring
/-
Property theorems C59 (armor labels of keys).
-/
namespace Pgp.Props
open Spec

/-- The armor `serialize_key` writes can be read back. -/
theorem keyArmor_storable (ty : ArmorType) (data : Bytes) (v : Option Str) (hv : v = none ∨ v = some keyVersion) :
    Storable { dataType := ty, data := data, version := v } := by
  refine ⟨?_, by simp, by simp, by simp, by simp, by simp, by simp, by simp, by simp, ⟨[], Or.inr ⟨rfl, rfl⟩, by simp⟩⟩
  intro w hw
  rcases hv with rfl | rfl
  · simp at hw
  · simp only [Option.some.injEq] at hw
    subst hw
    unfold OneLine keyVersion
    decide

theorem joinPackets_octets (ps : List RawPacket) (h : ∀ p ∈ ps, Expressible p) :
    joinPackets ps = .ok (packetsOctets ps) ∧ parseBinaryPacketData (packetsOctets ps) = .ok ps := by
  obtain ⟨es, h1, h2⟩ := C10_parse_concat_partial ps h
  have e : es.flatten = packetsOctets ps := by
    clear h2 h
    induction ps generalizing es with
    | nil => simp [List.mapM_nil, pure, Except.pure] at h1; subst h1; rfl
    | cons p ps ih =>
      rw [List.mapM_cons] at h1
      obtain ⟨b, hb, h1⟩ := except_bind_eq_ok.mp h1
      obtain ⟨bs, hbs, h1⟩ := except_bind_eq_ok.mp h1
      simp only [except_pure, Except.ok.injEq] at h1
      subst h1
      rw [List.flatten_cons, ih bs hbs]
      simp [packetsOctets, packetOctets, hb]
  rw [e] at h2
  refine ⟨?_, h2⟩
  simp only [joinPackets, h1, except_bind_ok, except_pure, e]

/-- C59, what holds: whatever the label, a key written as text is read back with exactly its packets, as a secret key if and only if its
first packet is one. -/
theorem C59_text_roundtrip_partial (c : KeyClass) (ps : List RawPacket) (h : ∀ p ∈ ps, Expressible p) (p : RawPacket)
    (hp : ps.head? = some p) (hc : p.type = 6 ∧ c = .publicKey ∨ p.type = 5 ∧ c = .secretKey) :
    ∃ text, serializeKeyText c ps = .ok text ∧ readKeyText text = .ok (c, ps) := by
  obtain ⟨h1, h2⟩ := joinPackets_octets ps h
  obtain ⟨text, ht, hr⟩ := C17_armor_roundtrip { dataType := .publicKey, data := packetsOctets ps, version := some keyVersion }
    (keyArmor_storable _ _ _ (Or.inr rfl))
  have hty : armorTypeOf c = .ok .publicKey := by cases c <;> rfl
  refine ⟨text, ?_, ?_⟩
  · simp only [serializeKeyText, h1, hty, except_bind_ok, ht]
  · have hcl : classOf ps = .ok c := by
      cases ps with
      | nil => simp at hp
      | cons q qs =>
        simp only [List.head?_cons, Option.some.injEq] at hp
        subst hp
        rcases hc with ⟨h5, rfl⟩ | ⟨h5, rfl⟩ <;> simp [classOf, h5]
    simp only [readKeyText, hr, except_bind_ok, h2, hcl, except_pure]

example := C59_text_roundtrip_partial .publicKey [⟨.old, 6, [4, 1, 2, 3]⟩, ⟨.old, 13, [0x61]⟩] (by
    intro p hp
    simp only [List.mem_cons, List.not_mem_nil, or_false] at hp
    rcases hp with rfl | rfl <;> exact Or.inr ⟨rfl, by decide, by decide⟩) _ rfl (Or.inl ⟨rfl, rfl⟩)

/-- C59, what holds: the same for octets. -/
theorem C59_bytes_roundtrip_partial (c : KeyClass) (ps : List RawPacket) (h : ∀ p ∈ ps, Expressible p) (p : RawPacket)
    (hp : ps.head? = some p) (hc : p.type = 6 ∧ c = .publicKey ∨ p.type = 5 ∧ c = .secretKey) :
    ∃ b, serializeKeyBytes ps = .ok b ∧ readKeyBytes b = .ok (c, ps) := by
  obtain ⟨h1, h2⟩ := joinPackets_octets ps h
  refine ⟨packetsOctets ps, h1, ?_⟩
  have hcl : classOf ps = .ok c := by
    cases ps with
    | nil => simp at hp
    | cons q qs =>
      simp only [List.head?_cons, Option.some.injEq] at hp
      subst hp
      rcases hc with ⟨h5, rfl⟩ | ⟨h5, rfl⟩ <;> simp [classOf, h5]
  simp only [readKeyBytes, h2, hcl, except_bind_ok, except_pure]

example := C59_bytes_roundtrip_partial .publicKey [⟨.old, 6, [4, 1, 2, 3]⟩, ⟨.old, 13, [0x61]⟩] (by
    intro p hp
    simp only [List.mem_cons, List.not_mem_nil, or_false] at hp
    rcases hp with rfl | rfl <;> exact Or.inr ⟨rfl, by decide, by decide⟩) _ rfl (Or.inl ⟨rfl, rfl⟩)

theorem publicHeaderLine (d : Bytes) (v : Option Str) : ({ dataType := .publicKey, data := d, version := v } : Armor).headerLine =
    "-----BEGIN PGP PUBLIC KEY BLOCK-----".toList := by
  have e : ∀ x y z : Str, DASHES ++ x ++ y ++ (if ArmorType.publicKey = ArmorType.message then z else []) ++ DASHES =
      DASHES ++ x ++ y ++ DASHES := by
    intro x y z
    simp only [reduceCtorEq, if_false, List.append_nil]
  unfold Armor.headerLine
  refine (e _ _ _).trans ?_
  show DASHES ++ "BEGIN ".toList ++ ArmorType.publicKey.name ++ DASHES = _
  decide +kernel

/-- C59 refuted: the text of every key, secret ones included, is labelled as a public key block (and names the version of the library). -/
theorem C59_secret_label_refuted (c : KeyClass) (ps : List RawPacket) (text : Str) (h : serializeKeyText c ps = .ok text) :
    ∃ body, text = "-----BEGIN PGP PUBLIC KEY BLOCK-----\nVersion: Python PGP 0.0.1\n".toList ++ body := by
  unfold serializeKeyText at h
  obtain ⟨data, hd, h⟩ := except_bind_eq_ok.mp h
  have hty : armorTypeOf c = .ok .publicKey := by cases c <;> rfl
  rw [hty, except_bind_ok] at h
  unfold Armor.toStr Armor.toLines at h
  simp only [extraLines, except_bind_ok, except_pure, Except.ok.injEq] at h
  subst h
  have hl := publicHeaderLine data (some keyVersion)
  rw [hl, show "-----BEGIN PGP PUBLIC KEY BLOCK-----\nVersion: Python PGP 0.0.1\n".toList = "-----BEGIN PGP PUBLIC KEY BLOCK-----".toList ++ ['\n'] ++ ("Version: Python PGP 0.0.1".toList ++ ['\n']) from by decide +kernel]
  have hv : headerField "Version" (some keyVersion) = ["Version: Python PGP 0.0.1".toList] := by decide +kernel
  rw [hv]
  generalize "-----BEGIN PGP PUBLIC KEY BLOCK-----".toList = hd
  generalize "Version: Python PGP 0.0.1".toList = vl
  simp only [joinLines, List.flatMap_append, List.flatMap_cons, List.flatMap_nil, List.append_assoc, List.append_nil]
  exact ⟨_, rfl⟩

/-- The secret key hypothesis is met: there are such keys and they are written. -/
example : ∃ text, serializeKeyText .secretKey [⟨.old, 5, [4, 1, 2, 3]⟩, ⟨.old, 13, [0x61]⟩] = .ok text := by
  obtain ⟨t, h, -⟩ := C59_text_roundtrip_partial .secretKey [⟨.old, 5, [4, 1, 2, 3]⟩, ⟨.old, 13, [0x61]⟩] (by
    intro p hp
    simp only [List.mem_cons, List.not_mem_nil, or_false] at hp
    rcases hp with rfl | rfl <;> exact Or.inr ⟨rfl, by decide, by decide⟩) _ rfl (Or.inr ⟨rfl, rfl⟩)
  exact ⟨t, h⟩

/-- C59 refuted: submitting a key to a keyserver sends every packet the key object has, secret key packets included, labelled as a public
key block. -/
theorem C59_submit_refuted (ps : List RawPacket) (h : ∀ p ∈ ps, Expressible p) :
    ∃ text a, submitText ps = .ok text ∧ fromAscii text = .ok a ∧ a.dataType = .publicKey ∧ parseBinaryPacketData a.data = .ok ps := by
  obtain ⟨h1, h2⟩ := joinPackets_octets ps h
  obtain ⟨text, ht, hr⟩ := C17_armor_roundtrip { dataType := .publicKey, data := packetsOctets ps }
    (keyArmor_storable _ _ _ (Or.inl rfl))
  refine ⟨text, _, ?_, hr, rfl, h2⟩
  simp only [submitText, h1, except_bind_ok, ht]

example := C59_submit_refuted [⟨.old, 5, [4, 1, 2, 3]⟩, ⟨.old, 13, [0x61]⟩] (by
    intro p hp
    simp only [List.mem_cons, List.not_mem_nil, or_false] at hp
    rcases hp with rfl | rfl <;> exact Or.inr ⟨rfl, by decide, by decide⟩)

end Pgp.Props
