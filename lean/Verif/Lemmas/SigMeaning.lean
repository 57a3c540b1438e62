import Verif.Lemmas.SigPackets
import Verif.Lemmas.KeyFile
import Verif.Spec.SigMeaning
/-
Lemmas for C85: reading the octets of a signature subpacket by subpacket.
-/
namespace Pgp
open Spec

/-- What a raw subpacket is read as. -/
def readRaw (r : RawSub) : Py Sub := readSub r.ty r.critical r.content

theorem parseSubs_raw {rs : List RawSub} {b : Bytes} (h : RawSubs rs b) : ∀ {data rest : Bytes} {off : Nat}, data.drop off = b ++ rest →
    parseSubs data off (off + b.length) = (do let l ← List.mapM readRaw rs; return (l, off + b.length)) := by
  induction h with
  | nil =>
    intro data rest off _
    rw [parseSubs_eq]
    simp
  | @cons r rs l rest' hl ht hs ih =>
    intro data rest off hd
    rw [List.append_assoc] at hd
    have hh := subHeader_write (critical := r.critical) ht hl hd
    have hi := ih (drop_add_of_drop hd)
    have hpos : 0 < (l ++ [UInt8.ofNat (r.ty + if r.critical then 128 else 0)] ++ r.content).length := by
      simp only [List.length_append, List.length_singleton]; omega
    generalize l ++ [UInt8.ofNat (r.ty + if r.critical then 128 else 0)] ++ r.content = e at *
    rw [parseSubs_eq, if_pos (by rw [List.length_append]; omega), hh]
    dsimp only
    rw [List.length_append, ← Nat.add_assoc, hi, List.mapM_cons]
    simp only [readRaw, bind_assoc, pure_bind]

theorem mpiLoop_loose {l : List Nat} {bs : List Bytes} (h : List.Forall₂ LooseMpi l bs) :
    ∀ {data : Bytes} {off fuel : Nat}, data.drop off = bs.flatten → l.length ≤ fuel → mpiLoop data fuel off = .ok l := by
  induction h with
  | nil =>
    intro data off fuel hd _
    have : ¬off < data.length := by
      have := congrArg List.length hd
      simp at this
      omega
    cases fuel <;> simp [mpiLoop, this]
  | @cons i b l bs hb _ ih =>
    intro data off fuel hd hf
    cases fuel with
    | zero => simp at hf
    | succ fuel =>
      rw [List.flatten_cons] at hd
      have hpos : 0 < b.length := by
        obtain ⟨bits, body, _, _, _, rfl⟩ := hb
        simp only [List.length_append, beBytes_length]
        omega
      have hlt : off < data.length := by
        have := congrArg List.length hd
        simp only [List.length_drop, List.length_append] at this
        omega
      simp only [mpiLoop, hlt, if_true]
      rw [mpiToInt_loose hb hd]
      simp only [except_bind_ok]
      rw [ih (drop_add_of_drop hd) (by simp at hf; omega)]
      rfl

theorem loose_lengths {l : List Nat} {bs : List Bytes} (h : List.Forall₂ LooseMpi l bs) : l.length ≤ bs.flatten.length := by
  induction h with
  | nil => simp
  | @cons i b l bs hb _ ih =>
    obtain ⟨bits, body, _, _, _, rfl⟩ := hb
    simp only [List.flatten_cons, List.length_append, beBytes_length, List.length_cons]
    omega

/-- Reading a signature is reading its subpackets. -/
theorem parseSig_raw {t p h : UInt8} {hashed unhashed : List RawSub} {left : Bytes} {values : List Nat} {b : Bytes}
    (hr : SigRaw t p h hashed unhashed left values b) :
    parseSig b = (do
      let hs ← List.mapM readRaw hashed
      let us ← List.mapM readRaw unhashed
      return .v4 4 t.toNat p.toNat h.toNat hs us left (values.map some)) := by
  obtain ⟨hd, ud, vs, h1, h2, l1, l2, h3, h4, rfl⟩ := hr
  generalize hD : [4, t, p, h] ++ beBytes 2 hd.length ++ hd ++ beBytes 2 ud.length ++ ud ++ left ++ vs.flatten = data
  have d0 : data.drop 0 = 4 :: t :: p :: h :: (intTo2byte hd.length ++ (hd ++ (intTo2byte ud.length ++ (ud ++ (left ++ vs.flatten))))) := by
    rw [← hD, intTo2byte_eq, intTo2byte_eq]; simp only [List.append_assoc, List.drop_zero]; rfl
  have d1 := drop_succ_of_drop d0
  have d2 := drop_succ_of_drop d1
  have d3 := drop_succ_of_drop d2
  have d4 := drop_succ_of_drop d3
  have d6 := drop_add_of_drop' d4 (n := 2) rfl
  have d7 := drop_add_of_drop d6
  have d8 := drop_add_of_drop' d7 (n := 2) rfl
  have d9 := drop_add_of_drop d8
  have d10 := drop_add_of_drop' d9 (n := 2) h3.symm
  simp only [Nat.zero_add, Nat.reduceAdd] at d1 d2 d3 d4 d6 d7 d8 d9 d10
  have a0 := idx_of_drop d0
  have a1 := idx_of_drop d1
  have a2 := idx_of_drop d2
  have a3 := idx_of_drop d3
  have a4 := shortToInt_of_drop d4
  rw [Nat.mod_eq_of_lt (by norm_num; omega)] at a4
  have a5 := parseSubs_raw h1 d6
  have a6 := shortToInt_of_drop d7
  rw [Nat.mod_eq_of_lt (by norm_num; omega)] at a6
  have a7 := parseSubs_raw h2 d8
  have a8 := slice_of_drop (j := 6 + hd.length + 2 + ud.length + 2) d9 (by omega)
  have hlen : values.length ≤ data.length := by
    have := loose_lengths h4
    rw [← hD]; simp only [List.length_append]; omega
  have a9 := mpiLoop_loose h4 d10 hlen
  have a10 : sigTail data (6 + hd.length + 2 + ud.length) = .ok (left, values.map some) := by
    unfold sigTail
    simp only [a8, a9, except_bind_ok, except_pure]
  rw [parseSig_eq]
  simp only [a0, a1, a2, a3, a4, a5, except_bind_ok]
  rw [if_neg (by decide), if_pos trivial]
  cases hm : List.mapM readRaw hashed with
  | error e => rfl
  | ok hs =>
    simp only [except_bind_ok, except_pure, a6, a7]
    cases hu : List.mapM readRaw unhashed with
    | error e => rfl
    | ok us => simp only [except_bind_ok, except_pure, a10]

theorem parsePlain_type {ty : Nat} {d : Bytes} {v : Plain} (h : parsePlain ty d = .ok v) : v.type = ty := by
  unfold parsePlain at h
  split at h
  all_goals first
    | (obtain ⟨_, _, h⟩ := except_bind_eq_ok.mp h; cases h; rfl)
    | (cases h; rfl)
    | skip
  · unfold readTrust at h
    obtain ⟨_, _, h⟩ := except_bind_eq_ok.mp h
    obtain ⟨_, _, h⟩ := except_bind_eq_ok.mp h
    obtain ⟨_, _, h⟩ := except_bind_eq_ok.mp h
    cases h; rfl
  · unfold readRegex at h
    obtain ⟨_, _, h⟩ := except_bind_eq_ok.mp h
    obtain ⟨_, _, h⟩ := except_bind_eq_ok.mp h
    cases h; rfl
  · unfold readAdditionalRecipient at h
    obtain ⟨_, _, h⟩ := except_bind_eq_ok.mp h
    obtain ⟨_, _, h⟩ := except_bind_eq_ok.mp h
    obtain ⟨_, _, h⟩ := except_bind_eq_ok.mp h
    cases h; rfl
  · unfold readRevocationKey at h
    obtain ⟨_, _, h⟩ := except_bind_eq_ok.mp h
    cases h
  · unfold readIssuer at h
    obtain ⟨_, _, h⟩ := except_bind_eq_ok.mp h
    obtain ⟨_, _, h⟩ := except_bind_eq_ok.mp h
    cases h; rfl
  · unfold readNote at h
    obtain ⟨_, _, h⟩ := except_bind_eq_ok.mp h
    obtain ⟨_, _, h⟩ := except_bind_eq_ok.mp h
    obtain ⟨_, _, h⟩ := except_bind_eq_ok.mp h
    obtain ⟨_, _, h⟩ := except_bind_eq_ok.mp h
    obtain ⟨_, _, h⟩ := except_bind_eq_ok.mp h
    obtain ⟨_, _, h⟩ := except_bind_eq_ok.mp h
    obtain ⟨_, _, h⟩ := except_bind_eq_ok.mp h
    cases h; rfl
  · unfold readTarget at h
    obtain ⟨_, _, h⟩ := except_bind_eq_ok.mp h
    obtain ⟨_, _, h⟩ := except_bind_eq_ok.mp h
    obtain ⟨_, _, h⟩ := except_bind_eq_ok.mp h
    obtain ⟨_, _, h⟩ := except_bind_eq_ok.mp h
    obtain ⟨_, _, h⟩ := except_bind_eq_ok.mp h
    cases h; rfl

theorem readRaw_type {r : RawSub} {x : Sub} (h : readRaw r = .ok x) : x.type = r.ty := by
  unfold readRaw readSub at h
  split at h
  · rename_i h32
    obtain ⟨_, _, h⟩ := except_bind_eq_ok.mp h
    cases h
    exact h32.symm
  · obtain ⟨_, hv, h⟩ := except_bind_eq_ok.mp h
    cases h
    exact parsePlain_type hv

theorem readRaw_plain {r : RawSub} (h : r.ty ≠ 32) : readRaw r = (do let v ← parsePlain r.ty r.content; return Sub.plain r.critical v) := by
  rw [readRaw, readSub, if_neg h]

/-- A signature object read from these octets. -/
theorem object_raw {t p h : UInt8} {hashed unhashed : List RawSub} {left : Bytes} {values : List Nat} {b : Bytes}
    (hr : SigRaw t p h hashed unhashed left values b) {sig : Sig} (hp : parseSig b = .ok sig) {fmt : HeaderFormat} {s : SigObj}
    (hs : SigObj.fromPacket fmt sig = .ok s) :
    ∃ hl ul, List.mapM readRaw hashed = .ok hl ∧ List.mapM readRaw unhashed = .ok ul ∧
      s = ⟨4, t.toNat, p.toNat, h.toNat, none, none, hl, ul, left, values.map some, fmt⟩ := by
  rw [parseSig_raw hr] at hp
  obtain ⟨hl, h1, hp⟩ := except_bind_eq_ok.mp hp
  obtain ⟨ul, h2, hp⟩ := except_bind_eq_ok.mp hp
  cases hp
  simp only [SigObj.fromPacket] at hs
  rw [if_pos (by decide)] at hs
  cases hs
  exact ⟨hl, ul, h1, h2, rfl⟩

theorem forall₂_filter {rs : List RawSub} {l : List Sub} (h : List.Forall₂ (fun r x => readRaw r = .ok x) rs l) (ty : Nat) :
    List.Forall₂ (fun r x => readRaw r = .ok x) (rs.filter (fun r => r.ty = ty)) (l.filter (fun x => x.type = ty)) := by
  induction h with
  | nil => exact .nil
  | @cons r x rs l hrx _ ih =>
    have := readRaw_type hrx
    by_cases ht : r.ty = ty
    · rw [List.filter_cons_of_pos (by simpa using ht), List.filter_cons_of_pos (by simpa [this] using ht)]
      exact .cons hrx ih
    · rw [List.filter_cons_of_neg (by simpa using ht), List.filter_cons_of_neg (by simpa [this] using ht)]
      exact ih

theorem mapM_forall₂ {α β : Type} {f : α → Py β} {l : List α} {r : List β} (h : List.mapM f l = .ok r) :
    List.Forall₂ (fun a b => f a = .ok b) l r := by
  induction l generalizing r with
  | nil => cases h; exact .nil
  | cons a l ih =>
    rw [List.mapM_cons] at h
    obtain ⟨x, hx, h⟩ := except_bind_eq_ok.mp h
    obtain ⟨y, hy, h⟩ := except_bind_eq_ok.mp h
    cases h
    exact .cons hx (ih hy)

/-- The subpackets of one type in the object are those in the octets. -/
theorem subs_raw {t p h : UInt8} {hashed unhashed : List RawSub} {left : Bytes} {values : List Nat} {b : Bytes}
    (hr : SigRaw t p h hashed unhashed left values b) {sig : Sig} (hp : parseSig b = .ok sig) {fmt : HeaderFormat} {s : SigObj}
    (hs : SigObj.fromPacket fmt sig = .ok s) (ty : Nat) :
    List.Forall₂ (fun r x => readRaw r = .ok x) ((hashed ++ unhashed).filter (fun r => r.ty = ty)) (s.subs ty) := by
  obtain ⟨hl, ul, h1, h2, rfl⟩ := object_raw hr hp hs
  exact forall₂_filter (List.rel_append (mapM_forall₂ h1) (mapM_forall₂ h2)) ty

theorem firstContent_some {ty : Nat} {l : List RawSub} {c : Bytes} (h : firstContent ty l = some c) :
    ∃ r rs, l.filter (fun r => r.ty = ty) = r :: rs ∧ r.ty = ty ∧ r.content = c := by
  unfold firstContent contents at h
  cases hf : l.filter (fun r => r.ty = ty) with
  | nil => rw [hf] at h; cases h
  | cons r rs =>
    rw [hf] at h
    have hm : r ∈ l.filter (fun r => r.ty = ty) := by rw [hf]; exact List.mem_cons_self
    refine ⟨r, rs, rfl, by simpa using (List.mem_filter.mp hm).2, ?_⟩
    simpa using h

theorem firstContent_none {ty : Nat} {l : List RawSub} (h : firstContent ty l = none) : l.filter (fun r => r.ty = ty) = [] := by
  unfold firstContent contents at h
  cases hf : l.filter (fun r => r.ty = ty) with
  | nil => rfl
  | cons r rs => rw [hf] at h; cases h

theorem readNote_raw {f : UInt8} {name value : Bytes} (hf : f = 0 ∨ f = 0x80) (hnl : name.length < 65536) (hv : value.length < 65536) :
    readNote ([f, 0, 0, 0] ++ beBytes 2 name.length ++ beBytes 2 value.length ++ name ++ value) =
      .ok (.note (splitAt (utf8DecodeReplace name)).1 (splitAt (utf8DecodeReplace name)).2 (.text (utf8DecodeReplace value))) := by
  generalize hd : [f, 0, 0, 0] ++ beBytes 2 name.length ++ beBytes 2 value.length ++ name ++ value = d
  have hd' : d = [f, 0, 0, 0] ++ (intTo2byte name.length ++ (intTo2byte value.length ++ (name ++ value))) := by
    rw [← hd, intTo2byte_eq, intTo2byte_eq]; simp only [List.append_assoc]
  have d0 : d.drop 0 = [f, 0, 0, 0] ++ (intTo2byte name.length ++ (intTo2byte value.length ++ (name ++ value))) := hd'
  have d1 : d.drop 1 = [0, 0, 0] ++ (intTo2byte name.length ++ (intTo2byte value.length ++ (name ++ value))) := by rw [hd']; rfl
  have d4 := drop_add_of_drop' d0 (n := 4) rfl
  rw [Nat.zero_add] at d4
  have d6 := drop_add_of_drop' d4 (n := 2) rfl
  have d8 := drop_add_of_drop' d6 (n := 2) rfl
  have d9 := drop_add_of_drop d8
  norm_num at d6 d8 d9
  have hlen : 8 + name.length + value.length = d.length := by
    rw [hd']; simp only [List.length_append, intTo2byte_length, List.length_cons, List.length_nil]; omega
  have a1 : (slice d 1 4).all (· == 0) = true := by
    rw [slice_of_drop (j := 4) d1 rfl]; rfl
  have a2 : idx d 0 = .ok f := idx_of_drop (s := List.append [0, 0, 0] _) d0
  have a3 := shortToInt_of_drop d4
  have a4 := shortToInt_of_drop d6
  rw [Nat.mod_eq_of_lt (by norm_num; omega)] at a3 a4
  have a5 := slice_of_drop d8 rfl
  have a6 : slice d (8 + name.length) (8 + name.length + value.length) = value :=
    slice_of_drop (s := []) (by simpa using d9) rfl
  have a7 : decide (d.length ≥ 8) = true := by simp; omega
  have a8 : (8 + name.length + value.length == d.length) = true := by simpa using hlen
  have a9 : (f.toNat &&& 0x7f == 0) = true := by rcases hf with rfl | rfl <;> decide
  unfold readNote
  simp only [pyAssert_true a7, pyAssert_true a1, a2, a3, a4, a5, a6, pyAssert_true a8, pyAssert_true a9, except_bind_ok, except_pure]

/-- Reading all subpackets of a type with `g`. -/
theorem mapM_raw {α : Type} {rs : List RawSub} {xs : List Sub} (hf : List.Forall₂ (fun r x => readRaw r = .ok x) rs xs) (g : Sub → Py α) {R : RawSub → α → Prop}
    (hR : ∀ r ∈ rs, ∀ x a, readRaw r = .ok x → R r a → g x = .ok a) {vs : List α} (hv : List.Forall₂ R rs vs) : List.mapM g xs = .ok vs := by
  induction hf generalizing vs with
  | nil => cases hv; rfl
  | @cons r x rs xs hrx _ ih =>
    obtain ⟨a, vs', h1, h2, rfl⟩ := List.forall₂_cons_left_iff.mp hv
    rw [List.mapM_cons, hR r List.mem_cons_self x a hrx h1, except_bind_ok, ih (fun r hr => hR r (List.mem_cons_of_mem _ hr)) h2]
    rfl

theorem contents_forall₂ {α : Type} {P : List UInt8 → α → Prop} {ty : Nat} {l : List RawSub} {vs : List α} (h : List.Forall₂ P (contents ty l) vs) :
    List.Forall₂ (fun r a => P r.content a) (l.filter (fun r => r.ty = ty)) vs := List.forall₂_map_left_iff.mp h

end Pgp
