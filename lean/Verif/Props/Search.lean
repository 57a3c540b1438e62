import Verif.Spec.Search
import Verif.Props.Import
import Verif.Props.Database
/-
Property theorems C121: searching the keyrings for keys.
-/
namespace Pgp.Props
open Spec

/-! ### The user ids of a key that was read -/

/-- The texts in the user id packets. -/
def packetIds (ps : List KPacket) : List Str :=
  ps.filterMap fun p => match p.body with
    | .uid s => some s
    | _ => none

theorem packetIds_append (a b : List KPacket) : packetIds (a ++ b) = packetIds a ++ packetIds b := List.filterMap_append

theorem packetIds_none {ps : List KPacket} (h : ∀ p ∈ ps, ∀ s, p.body ≠ .uid s) : packetIds ps = [] := by
  unfold packetIds
  rw [List.filterMap_eq_nil_iff]
  intro p hp
  have := h p hp
  cases hb : p.body with
  | uid s => exact absurd hb (this s)
  | _ => rfl

theorem sigOf_noid {types : List Nat} {b : KBody} (h : SigOf types b) : ∀ s, b ≠ .uid s := by
  rintro s rfl
  exact h

theorem groups_noid {gs : List PGroup} {types : List Nat} (h : ∀ g ∈ gs, (∀ s, g.lead.body ≠ .uid s) ∧ ∀ p ∈ g.sigs, SigOf types p.body) :
    packetIds (groupsFlat gs) = [] := by
  refine packetIds_none fun p hp => ?_
  obtain ⟨l, hl, hp⟩ := List.mem_flatten.mp hp
  obtain ⟨g, hg, rfl⟩ := List.mem_map.mp hl
  rcases List.mem_cons.mp hp with rfl | hp
  · exact (h g hg).1
  · exact sigOf_noid ((h g hg).2 p hp)

theorem uids_texts {magic : Bytes → Str} {gs : List PGroup} {es : List KGroup} (hp : List.Forall₂ (fun g e => PartOf magic (PGroup.block g) e) gs es)
    (hk : ∀ g ∈ gs, IsUid g.lead.body ∧ ∀ p ∈ g.sigs, SigOf certTypes p.body) : es.filterMap (fun g => g.1.idText) = packetIds (groupsFlat gs) := by
  induction hp with
  | nil => rfl
  | cons h1 _ ih =>
    rename_i g e gs es _
    obtain ⟨hb, hs⟩ := hk g List.mem_cons_self
    have ih := ih fun g hg => hk g (List.mem_cons_of_mem _ hg)
    have hf : groupsFlat (g :: gs) = [g.lead] ++ (g.sigs ++ groupsFlat gs) := by simp [groupsFlat, PGroup.packets]
    rw [hf, packetIds_append, packetIds_append, packetIds_none (ps := g.sigs) fun p hp => sigOf_noid (hs p hp)]
    obtain ⟨⟨f, b⟩, ss⟩ := g
    cases b with
    | uid s =>
      have he : e.1.item = .uid s := h1.1.2
      have hi : e.1.idText = some s := by unfold KElem.idText; rw [he]
      rw [List.filterMap_cons_some (f := fun g : KGroup => g.1.idText) hi, ih]
      rfl
    | _ => exact hb.elim

theorem idTexts_of {magic : Bytes → Str} {secret : Bool} {ps : List KPacket} {k : TKey} (hs : KeySequence secret (ps.map KPacket.body))
    (hnt : ∀ p ∈ ps, ¬ IsTrust p.body) (hk : TKey.fromPackets magic secret ps = .ok k) : k.idTexts = packetIds ps := by
  obtain ⟨A, hA, rfl⟩ := arr_of hs hnt
  have hr := arr_read hA hk
  have e1 := uids_texts hr.uids hA.uids
  have e3 : packetIds A.direct = [] := packetIds_none fun p hp => sigOf_noid (hA.direct p hp)
  have e4 : packetIds (groupsFlat A.attrs) = [] := groups_noid fun g hg => by
    obtain ⟨h1, h2⟩ := hA.attrs g hg
    refine ⟨fun s hb => ?_, h2⟩
    rw [hb] at h1; exact h1
  have e5 : packetIds (groupsFlat A.subs) = [] := groups_noid fun g hg => by
    obtain ⟨⟨k, p, h1⟩, _, h2⟩ := hA.subs g hg
    refine ⟨fun s hb => ?_, h2⟩
    rw [hb] at h1; cases h1
  show k.uids.filterMap _ = packetIds ([_] ++ (A.direct ++ (groupsFlat A.uids ++ (groupsFlat A.attrs ++ (groupsFlat A.subs ++ [])))))
  rw [e1, packetIds_append, packetIds_append, packetIds_append, packetIds_append, packetIds_append, e3, e4, e5]
  simp [packetIds]

theorem rep_ids {fl : Nat → Nat} {good : Nat → Prop} {magic : Bytes → Str} {F : HeaderFormat → Prop} {data : Bytes} {ps : List KPacket} {secret : Bool}
    (hrep : Rep magic F fl good data ps) (hseq : KeySequence secret (ps.map KPacket.body)) {ids : List Str} (hids : FileIds data ids) {k : TKey}
    (hk : readKey magic data = .ok k) : k.idTexts = ids := by
  obtain ⟨k', r1, r2, r3, r4⟩ := rep_read_full hrep hseq
  rw [hk] at r1
  cases r1
  obtain ⟨rs, es, hh, he, hdat⟩ := hrep
  have hnt : ∀ p ∈ ps, ¬ IsTrust p.body := fun p hp ht => by
    have : Modern magic p.body := (forall₂_mem_right hh p hp).elim fun r hr => hr.2.2.2.2.1
    cases hb : p.body <;> rw [hb] at ht this <;> first | exact ht | exact this
  rw [idTexts_of hseq hnt r4]
  have hex : ∀ r ∈ rs, Expressible r := fun r hr => (forall₂_mem_left hh r hr).elim fun p hp => hp.2.2.2.2.2.1
  obtain ⟨qs, ws, hfr, hw, hc⟩ := hids
  have hqs : qs = rs := by
    obtain ⟨es', h3, h4⟩ := C10_parse_concat_partial rs hex
    rw [he] at h3
    cases h3
    rw [hdat, hw, C10_received_concat qs ws hfr] at h4
    cases h4; rfl
  subst hqs
  have hl : packetIds ps = ((qs.filter fun p => p.type = 13).map RawPacket.content).map userIdParse := by
    clear r2 r3 hk he hseq r4 hnt hex hdat hfr hw hc
    induction hh with
    | nil => rfl
    | @cons r p rs ps hx _ ih =>
      have hb := hx.1
      unfold readPacket at hb
      obtain ⟨b, hb1, hb⟩ := except_bind_eq_ok.mp hb
      cases hb
      have ht := readBody_type hb1
      have hcons : ∀ x, packetIds (x :: ps) = packetIds [x] ++ packetIds ps := fun x => packetIds_append [x] ps
      rw [hcons, ih]
      by_cases h13 : r.type = 13
      · rw [List.filter_cons_of_pos (by simpa using h13)]
        have : readBody r = .ok (.uid (userIdParse r.content)) := by
          unfold readBody
          rw [dif_neg (by omega), dif_neg (by omega), dif_neg (by omega), dif_pos h13]
          rfl
        rw [this] at hb1
        cases hb1
        rfl
      · rw [List.filter_cons_of_neg (by simpa using h13)]
        cases b with
        | uid s => exact absurd (ht.symm.trans rfl) h13
        | _ => rfl
  rw [hl, hc, List.map_map]
  conv_rhs => rw [← List.map_id ids]
  apply List.map_congr_left
  intro s _
  exact utf8DecodeReplace_encode s

/-- What is known of a stored key. -/
def Stored (fl : FloorLog2) (H : Digest) (magic : Bytes → Str) (x : StoredKey) (b : KeyBlock) : Prop :=
  ∃ F k, FileFacts fl H magic F x.octets x.fingerprint k b ∧ k.idTexts = x.ids

theorem stored_of {fl : Nat → Nat} (hl : LogOnCounts fl) {good : Nat → Prop} (hg : GoodInts fl good) {H : Digest} (hH : ∀ d, (H 2 d).length = 20) {magic : Bytes → Str}
    {x : StoredKey} (h : x.Ok magic (H 2) good) : ∃ b, Stored fl H magic x b := by
  obtain ⟨⟨F, hF⟩, hfp, hids⟩ := h
  rcases hF with h | h
  · obtain ⟨ps, hr, hs⟩ := file_rep hg h
    obtain ⟨k, b, hf⟩ := rep_facts hg hH hr hs hfp
    exact ⟨b, F, k, hf, rep_ids hr hs hids hf.read⟩
  · obtain ⟨ps, hr, hs⟩ := secret_file_rep hl hg h
    obtain ⟨k, b, hf⟩ := rep_facts hg hH hr hs hfp
    exact ⟨b, F, k, hf, rep_ids hr hs hids hf.read⟩

/-! ### Searching -/

theorem stores_blocks {fl : Nat → Nat} (hl : LogOnCounts fl) {good : Nat → Prop} (hg : GoodInts fl good) {H : Digest} (hH : ∀ d, (H 2 d).length = 20) {magic : Bytes → Str}
    {s : List StoredKey} (hok : ∀ x ∈ s, x.Ok magic (H 2) good) : ∃ bs, List.Forall₂ (Stored fl H magic) s bs := by
  induction s with
  | nil => exact ⟨[], .nil⟩
  | cons x s ih =>
    obtain ⟨bs, h⟩ := ih fun y hy => hok y (.tail _ hy)
    obtain ⟨b, hb⟩ := stored_of hl hg hH (hok x (.head _))
    exact ⟨b :: bs, .cons hb h⟩

theorem stored_ring {fl : FloorLog2} {H : Digest} {magic : Bytes → Str} {s : List StoredKey} {bs : List KeyBlock} (h : List.Forall₂ (Stored fl H magic) s bs) :
    (∀ b ∈ bs, b.WF (keyInfo fl H)) ∧ ringOctets bs = (s.map StoredKey.octets).flatten ∧
      (bs.map fun b => shortId b.keyId) = s.map fun x => lastEight x.fingerprint := by
  induction h with
  | nil => exact ⟨fun _ h => (by cases h), rfl, rfl⟩
  | cons hx _ ih =>
    obtain ⟨F, k, hx, _⟩ := hx
    refine ⟨fun b hb => ?_, ?_, ?_⟩
    · rcases List.mem_cons.mp hb with rfl | hb
      · exact hx.wf
      · exact ih.1 _ hb
    · rw [ringOctets_cons, List.map_cons, List.flatten_cons, ih.2.1, hx.stored]
    · rw [List.map_cons, List.map_cons, ih.2.2, hx.short]
      rfl

theorem forall₂_filter {α β : Type} {R : α → β → Prop} {p : α → Bool} {q : β → Bool} (hpq : ∀ a b, R a b → p a = q b) {l : List α} {m : List β}
    (h : List.Forall₂ R l m) : List.Forall₂ R (l.filter p) (m.filter q) := by
  induction h with
  | nil => exact .nil
  | cons hx _ ih =>
    rw [List.filter_cons, List.filter_cons, hpq _ _ hx]
    split
    · exact .cons hx ih
    · exact ih

theorem forall₂_flatten {α β : Type} {R : α → β → Prop} {l : List (List α)} {m : List (List β)} (h : List.Forall₂ (List.Forall₂ R) l m) :
    List.Forall₂ R l.flatten m.flatten := by
  induction h with
  | nil => exact .nil
  | cons hx _ ih => rw [List.flatten_cons, List.flatten_cons]; exact List.rel_append hx ih

/-- The key object made of a block. -/
def madeOf (magic : Bytes → Str) (b : KeyBlock) : TKey :=
  match buildKey magic b.packets with
  | .ok k => k
  | .error _ => ⟨(⟨.old, .uid []⟩, []), [], [], []⟩

theorem stored_made {fl : FloorLog2} {H : Digest} {magic : Bytes → Str} {x : StoredKey} {b : KeyBlock} (h : Stored fl H magic x b) :
    buildKey magic b.packets = .ok (madeOf magic b) ∧ readKey magic x.octets = .ok (madeOf magic b) ∧ (madeOf magic b).octets fl none = .ok x.octets ∧
      (madeOf magic b).fingerprint fl H = .ok x.fingerprint ∧ (madeOf magic b).idTexts = x.ids := by
  obtain ⟨F, k, h, hi⟩ := h
  have : madeOf magic b = k := by unfold madeOf; rw [h.built]
  rw [this]
  exact ⟨h.built, h.read, h.octets none fun _ _ => rfl, h.fingerprint, hi⟩

theorem search_setup {fl : Nat → Nat} (hl : LogOnCounts fl) {good : Nat → Prop} (hg : GoodInts fl good) {H : Digest} (hH : ∀ d, (H 2 d).length = 20) {magic : Bytes → Str}
    {stores : List (List StoredKey)} (hok : ∀ s ∈ stores, ∀ x ∈ s, x.Ok magic (H 2) good)
    {db : Database} (hdb : List.Forall₂ (fun r s => Keyring.open (keyInfo fl H) (s.map StoredKey.octets).flatten false = .ok r.ring) db stores) :
    ∃ (init : List (List Char × Bool × List KeyBlock)), List.Forall₂ (fun r s => Opened (keyInfo fl H) r s.1 s.2.1 s.2.2) db init ∧
      List.Forall₂ (List.Forall₂ (Stored fl H magic)) stores (init.map fun s => s.2.2) := by
  induction hdb with
  | nil => exact ⟨[], .nil, .nil⟩
  | @cons r s db stores h _ ih =>
    obtain ⟨init, h1, h2⟩ := ih fun t ht => hok t (.tail _ ht)
    obtain ⟨bs, hbs⟩ := stores_blocks hl hg hH (hok s (.head _))
    obtain ⟨w1, w2, _⟩ := stored_ring hbs
    exact ⟨(r.name, r.secret, bs) :: init, .cons ⟨rfl, rfl, w1, by rw [w2]; exact h⟩ h1, .cons hbs h2⟩

theorem lastMatch_nodup {bs : List KeyBlock} (h : (bs.map fun b => shortId b.keyId).Nodup) (w : List Char) :
    (lastMatch bs w).toList = bs.filter (KeyBlock.hasShort w) := by
  induction bs with
  | nil => rfl
  | cons b bs ih =>
    rw [List.map_cons, List.nodup_cons] at h
    have ih := ih h.2
    unfold lastMatch at ih ⊢
    rw [List.reverse_cons, List.find?_append, List.filter_cons]
    by_cases hb : b.hasShort w = true
    · have hnone : bs.filter (KeyBlock.hasShort w) = [] := by
        rw [List.filter_eq_nil_iff]
        intro c hc hcw
        refine h.1 (List.mem_map.mpr ⟨c, hc, ?_⟩)
        unfold KeyBlock.hasShort at hb hcw
        rw [beq_iff_eq] at hb hcw
        rw [hb, hcw]
      have hn : bs.reverse.find? (KeyBlock.hasShort w) = none := by
        rw [hnone] at ih
        cases hf : bs.reverse.find? (KeyBlock.hasShort w) with
        | none => rfl
        | some c => rw [hf] at ih; cases ih
      rw [hn, if_pos hb, hnone]
      simp [hb]
    · rw [if_neg hb, ← ih]
      simp [hb]

open Classical in
/-- C121 (part that holds): in a database of keyring files made of keys (no two in the same file with the same last eight digits), a search for a text in user ids finds
exactly the keys with a user id that contains it in lower case, in the order of the files and of the keys in them. -/
theorem C121_user_id_partial (magic : Bytes → Str) (fl : Nat → Nat) (hl : LogOnCounts fl) (good : Nat → Prop)
    (hg : ∀ i, good i → LogRoom fl i ∧ (0 < i → fl i = Nat.log2 i)) (H : Digest) (hH : ∀ d, (H 2 d).length = 20) (lower : Str → Str)
    (stores : List (List StoredKey)) (hok : ∀ s ∈ stores, ∀ x ∈ s, x.Ok magic (H 2) good) (hnd : ∀ s ∈ stores, (s.map fun x => lastEight x.fingerprint).Nodup)
    (db : Database) (hdb : List.Forall₂ (fun r s => Keyring.open (keyInfo fl H) (s.map StoredKey.octets).flatten false = .ok r.ring) db stores) (text : Str) :
    ∃ found, searchKeys fl H magic lower db none none (some text) = .ok found ∧
      List.Forall₂ (fun x k => readKey magic x.octets = .ok k ∧ k.octets fl none = .ok x.octets) (stores.flatten.filter fun x => x.Named lower text) found := by
  obtain ⟨init, h1, h2⟩ := search_setup hl hg hH hok hdb
  have hall := forall₂_flatten h2
  have hin : ∀ s ∈ init, ∃ t ∈ stores, List.Forall₂ (Stored fl H magic) t s.2.2 := fun s hs =>
    (forall₂_mem_right h2 s.2.2 (List.mem_map.mpr ⟨s, hs, rfl⟩))
  obtain ⟨_, _, _, _, h5⟩ := C89_search (keyInfo fl H) (keyBuilder magic lower) db init h1 [] (fun _ h => by cases h) _ rfl (madeOf magic) (by
    intro s hs b hb
    obtain ⟨i, hi, rfl⟩ := List.mem_map.mp hs
    obtain ⟨t, _, ht⟩ := hin i hi
    obtain ⟨x, _, hx⟩ := forall₂_mem_right ht b hb
    exact (stored_made hx).1)
  refine ⟨_, h5 text, ?_⟩
  have hre : ((storeRun (init.map fun s => freshStore s.1 s.2.1 s.2.2) (([] : List (KeyClass × RingOp)).map (·.2))).2.flatMap fun s => reachable s.ring.keys) =
      (init.map fun s => s.2.2).flatten := by
    show (init.map _).flatMap _ = _
    rw [List.flatMap_map, ← List.flatMap_def]
    apply List.flatMap_congr
    intro s hs
    obtain ⟨t, ht, hts⟩ := hin s hs
    show reachable s.2.2 = s.2.2
    refine C89_all_reachable_partial _ ?_
    rw [(stored_ring hts).2.2]
    exact hnd t ht
  rw [hre]
  generalize (init.map fun s => s.2.2).flatten = bs at hall
  rw [List.filter_map]
  have hfil := forall₂_filter (p := fun x : StoredKey => decide (x.Named lower text)) (q := (fun k => matchesUserId (keyBuilder magic lower) k text) ∘ madeOf magic) (by
    intro x b hxb
    obtain ⟨_, _, _, _, m5⟩ := stored_made hxb
    rw [Bool.eq_iff_iff, decide_eq_true_iff]
    show _ ↔ matchesUserId _ _ _ = true
    rw [C89_matches_iff]
    show _ ↔ ∃ u ∈ (madeOf magic b).idTexts, _
    rw [m5]
    rfl) hall
  generalize bs.filter _ = cs at hfil
  generalize stores.flatten.filter _ = xs at hfil
  induction hfil with
  | nil => exact .nil
  | cons hx _ ih => exact .cons ⟨(stored_made hx).2.1, (stored_made hx).2.2.1⟩ ih

open Classical in
/-- The keys found under an identifier, and those of them with a user id that contains a text. -/
theorem search_hits (magic : Bytes → Str) (fl : Nat → Nat) (hl : LogOnCounts fl) (good : Nat → Prop)
    (hg : ∀ i, good i → LogRoom fl i ∧ (0 < i → fl i = Nat.log2 i)) (H : Digest) (hH : ∀ d, (H 2 d).length = 20) (lower : Str → Str)
    (stores : List (List StoredKey)) (hok : ∀ s ∈ stores, ∀ x ∈ s, x.Ok magic (H 2) good) (hnd : ∀ s ∈ stores, (s.map fun x => lastEight x.fingerprint).Nodup)
    (db : Database) (hdb : List.Forall₂ (fun r s => Keyring.open (keyInfo fl H) (s.map StoredKey.octets).flatten false = .ok r.ring) db stores) (w : Str) (hw : w ≠ []) :
    ∃ hits, List.Forall₂ (fun x b => Stored fl H magic x b) (stores.flatten.filter fun x => lastEight x.fingerprint = lastEight w) hits ∧
      (∀ kid, searchKeys fl H magic lower db (some w) kid none = .ok (hits.map (madeOf magic))) ∧
      (∀ fp, fp = none ∨ fp = some [] → searchKeys fl H magic lower db fp (some w) none = .ok (hits.map (madeOf magic))) ∧
      (∀ kid u, searchKeys fl H magic lower db (some w) kid (some u) = .ok ((hits.map (madeOf magic)).filter fun k => matchesUserId (keyBuilder magic lower) k u)) ∧
      (∀ fp u, fp = none ∨ fp = some [] → searchKeys fl H magic lower db fp (some w) (some u) = .ok ((hits.map (madeOf magic)).filter fun k => matchesUserId (keyBuilder magic lower) k u)) := by
  obtain ⟨init, h1, h2⟩ := search_setup hl hg hH hok hdb
  have hin : ∀ s ∈ init, ∃ t ∈ stores, List.Forall₂ (Stored fl H magic) t s.2.2 := fun s hs =>
    (forall₂_mem_right h2 s.2.2 (List.mem_map.mpr ⟨s, hs, rfl⟩))
  obtain ⟨h3, h4, h5, h6, _⟩ := C89_search (keyInfo fl H) (keyBuilder magic lower) db init h1 [] (fun _ h => by cases h) _ rfl (madeOf magic) (by
    intro s hs b hb
    obtain ⟨i, hi, rfl⟩ := List.mem_map.mp hs
    obtain ⟨t, _, ht⟩ := hin i hi
    obtain ⟨x, _, hx⟩ := forall₂_mem_right ht b hb
    exact (stored_made hx).1)
  refine ⟨_, ?_, fun kid => h3 w kid hw, fun fp hf => h4 fp w hf hw, fun kid u => h5 w kid u hw, fun fp u hf => h6 fp w u hf hw⟩
  have hst : (storeRun (init.map fun s => freshStore s.1 s.2.1 s.2.2) (([] : List (KeyClass × RingOp)).map (·.2))).2 = init.map fun s => freshStore s.1 s.2.1 s.2.2 := rfl
  rw [hst, List.filterMap_map]
  clear h1 h3 h4 h5 h6 hin hok hdb hst
  generalize hbss : (init.map fun s => s.2.2) = bss at h2
  have hfm : (init.filterMap ((fun s => lastMatch s.ring.keys (shortId w)) ∘ fun s => freshStore s.1 s.2.1 s.2.2)) = bss.filterMap fun bs => lastMatch bs (shortId w) := by
    rw [← hbss, List.filterMap_map]
    rfl
  rw [hfm]
  clear hfm hbss
  induction h2 with
  | nil => exact .nil
  | @cons s bs stores bss hx _ ih =>
    have ih := ih fun t ht => hnd t (.tail _ ht)
    rw [List.flatten_cons, List.filter_append, List.filterMap_cons]
    have one : List.Forall₂ (fun (x : StoredKey) b => Stored fl H magic x b)
        (s.filter fun x => lastEight x.fingerprint = lastEight w) (lastMatch bs (shortId w)).toList := by
      have hn := hnd s (.head _)
      have hf := forall₂_filter (p := fun x : StoredKey => decide (lastEight x.fingerprint = lastEight w)) (q := KeyBlock.hasShort (shortId w)) (by
        intro x b hxb
        obtain ⟨F, k, hxb, _⟩ := hxb
        rw [Bool.eq_iff_iff, decide_eq_true_iff]
        unfold KeyBlock.hasShort
        rw [beq_iff_eq, hxb.short]
        rfl) hx
      have hlm : (lastMatch bs (shortId w)).toList = bs.filter (KeyBlock.hasShort (shortId w)) := by
        rw [← (stored_ring hx).2.2] at hn
        exact lastMatch_nodup hn _
      rw [hlm]
      exact hf
    cases hm : lastMatch bs (shortId w) with
    | none => rw [hm] at one; exact List.rel_append one ih
    | some b => rw [hm] at one; exact List.rel_append one ih

theorem made_forall {fl : FloorLog2} {H : Digest} {magic : Bytes → Str} {xs : List StoredKey} {bs : List KeyBlock} (h : List.Forall₂ (fun x b => Stored fl H magic x b) xs bs) :
    List.Forall₂ (fun (x : StoredKey) k => readKey magic x.octets = .ok k ∧ k.octets fl none = .ok x.octets) xs (bs.map (madeOf magic)) := by
  induction h with
  | nil => exact .nil
  | cons hx _ ih => exact .cons ⟨(stored_made hx).2.1, (stored_made hx).2.2.1⟩ ih

open Classical in
/-- C121 (part that holds): a search for a fingerprint, long or short key id finds exactly the keys whose fingerprint ends in the same eight digits. -/
theorem C121_fingerprint_partial (magic : Bytes → Str) (fl : Nat → Nat) (hl : LogOnCounts fl) (good : Nat → Prop)
    (hg : ∀ i, good i → LogRoom fl i ∧ (0 < i → fl i = Nat.log2 i)) (H : Digest) (hH : ∀ d, (H 2 d).length = 20) (lower : Str → Str)
    (stores : List (List StoredKey)) (hok : ∀ s ∈ stores, ∀ x ∈ s, x.Ok magic (H 2) good) (hnd : ∀ s ∈ stores, (s.map fun x => lastEight x.fingerprint).Nodup)
    (db : Database) (hdb : List.Forall₂ (fun r s => Keyring.open (keyInfo fl H) (s.map StoredKey.octets).flatten false = .ok r.ring) db stores) (w : Str) (hw : w ≠ []) :
    ∃ found, searchKeys fl H magic lower db (some w) none none = .ok found ∧ searchKeys fl H magic lower db none (some w) none = .ok found ∧
      List.Forall₂ (fun x k => readKey magic x.octets = .ok k ∧ k.octets fl none = .ok x.octets)
        (stores.flatten.filter fun x => lastEight x.fingerprint = lastEight w) found := by
  obtain ⟨hits, h1, h2, h3, _⟩ := search_hits magic fl hl good hg H hH lower stores hok hnd db hdb w hw
  exact ⟨_, h2 none, h3 none (.inl rfl), made_forall h1⟩

open Classical in
/-- C121 (part that holds): a search for an identifier and a text finds exactly the keys whose fingerprint ends in the same eight digits and which have a user id that contains the
text; given a fingerprint, the key id is not looked at. -/
theorem C121_both_partial (magic : Bytes → Str) (fl : Nat → Nat) (hl : LogOnCounts fl) (good : Nat → Prop)
    (hg : ∀ i, good i → LogRoom fl i ∧ (0 < i → fl i = Nat.log2 i)) (H : Digest) (hH : ∀ d, (H 2 d).length = 20) (lower : Str → Str)
    (stores : List (List StoredKey)) (hok : ∀ s ∈ stores, ∀ x ∈ s, x.Ok magic (H 2) good) (hnd : ∀ s ∈ stores, (s.map fun x => lastEight x.fingerprint).Nodup)
    (db : Database) (hdb : List.Forall₂ (fun r s => Keyring.open (keyInfo fl H) (s.map StoredKey.octets).flatten false = .ok r.ring) db stores) (w : Str) (hw : w ≠ []) (text : Str) :
    ∃ found, (∀ kid, searchKeys fl H magic lower db (some w) kid (some text) = .ok found) ∧ searchKeys fl H magic lower db none (some w) (some text) = .ok found ∧
      List.Forall₂ (fun x k => readKey magic x.octets = .ok k ∧ k.octets fl none = .ok x.octets)
        (stores.flatten.filter fun x => lastEight x.fingerprint = lastEight w ∧ x.Named lower text) found := by
  obtain ⟨hits, h1, _, _, h4, h5⟩ := search_hits magic fl hl good hg H hH lower stores hok hnd db hdb w hw
  refine ⟨_, fun kid => h4 kid text, h5 none text (.inl rfl), ?_⟩
  rw [List.filter_map]
  have hfil := forall₂_filter (p := fun x : StoredKey => decide (x.Named lower text)) (q := (fun k => matchesUserId (keyBuilder magic lower) k text) ∘ madeOf magic) (by
    intro x b hxb
    obtain ⟨_, _, _, _, m5⟩ := stored_made hxb
    rw [Bool.eq_iff_iff, decide_eq_true_iff]
    show _ ↔ matchesUserId _ _ _ = true
    rw [C89_matches_iff]
    show _ ↔ ∃ u ∈ (madeOf magic b).idTexts, _
    rw [m5]
    rfl) h1
  rw [List.filter_filter] at hfil
  have := made_forall hfil
  have e : (stores.flatten.filter fun x => decide (lastEight x.fingerprint = lastEight w ∧ x.Named lower text)) =
      stores.flatten.filter fun x => decide (x.Named lower text) && decide (lastEight x.fingerprint = lastEight w) := by
    congr 1
    funext x
    rw [← Bool.decide_and, decide_eq_decide]
    exact And.comm
  rw [e]
  exact this

/-- C121 (refuted): a search for a key id that does not belong to the fingerprint given with it finds the key with the fingerprint all the same. -/
theorem C121_key_id_ignored_refuted (fl : FloorLog2) (H : Digest) (magic : Bytes → Str) (lower : Str → Str) (db : Database) (fp : Str) (hf : fp ≠ []) (userId : Option Str) (kid kid' : Option Str) :
    searchKeys fl H magic lower db (some fp) kid userId = searchKeys fl H magic lower db (some fp) kid' userId := by
  unfold searchKeys dbSearch
  have : ∀ k, searchTerm (some fp) k = some fp := by
    intro k
    cases fp with
    | nil => exact absurd rfl hf
    | cons c cs => rfl
  rw [this, this, if_neg (by simp), if_neg (by simp)]

example (fl : FloorLog2) (H : Digest) (magic : Bytes → Str) (db : Database) := C121_key_id_ignored_refuted fl H magic id db "0123456789ABCDEF0123456789ABCDEF01234567".toList (by decide) none none (some "FEDCBA98".toList)

/-! ### A concrete case -/

private theorem exFramed_old {t : Nat} {n : UInt8} {c : Bytes} (h : n.toNat = c.length) (h0 : 0 < c.length) (h1 : c.length < 192) (ht : t < 16) :
    Framed ⟨.old, t, c⟩ (exPacket .old t n c) := headerOf_framed (f := .old) (exHeader h h0 h1 ht)

private theorem exSigPlain_length (t : UInt8) : (exSigPlain t).length = 19 := by
  simp only [exSigPlain, exSigOctets, List.length_append, List.length_cons, beBytes_length]
  decide

private theorem exIds : FileIds (exFile .old) ["Alé!".toList] := by
  have sig : ∀ t, Framed ⟨.old, 2, exSigPlain t⟩ (exPacket .old 2 19 (exSigPlain t)) := fun t =>
    exFramed_old (by rw [exSigPlain_length]; rfl) (by rw [exSigPlain_length]; decide) (by rw [exSigPlain_length]; decide) (by decide)
  refine ⟨[⟨.old, 6, exKeyOctets⟩, ⟨.old, 2, exSigPlain 0x1f⟩, ⟨.old, 13, [0x41, 0x6c, 0xc3, 0xa9, 0x21]⟩, ⟨.old, 2, exSigPlain 0x13⟩, ⟨.old, 14, exKeyOctets⟩,
      ⟨.old, 2, exSigPlain 0x18⟩],
    [exPacket .old 6 13 exKeyOctets, exPacket .old 2 19 (exSigPlain 0x1f), exPacket .old 13 5 [0x41, 0x6c, 0xc3, 0xa9, 0x21], exPacket .old 2 19 (exSigPlain 0x13),
      exPacket .old 14 13 exKeyOctets, exPacket .old 2 19 (exSigPlain 0x18)], ?_, ?_, ?_⟩
  · exact .cons (exFramed_old rfl (by decide) (by decide) (by decide)) (.cons (sig _) (.cons (exFramed_old rfl (by decide) (by decide) (by decide)) (.cons (sig _)
      (.cons (exFramed_old rfl (by decide) (by decide) (by decide)) (.cons (sig _) .nil)))))
  · simp [exFile]
  · decide +kernel

private def exStored (H : Digest) : StoredKey := ⟨exFile .old, hexText (H 2 ([0x99] ++ beBytes 2 exKeyOctets.length ++ exKeyOctets)), ["Alé!".toList]⟩

private theorem exStored_ok (magic : Bytes → Str) (H : Digest) : (exStored H).Ok magic (H 2) (· < 4096) :=
  ⟨⟨_, .inl (exFile_ok magic .old)⟩,
    ⟨.old, 6, [UInt8.ofNat (0x80 + 4 * 6), 13], exKeyOctets, [], _, .inl rfl, exHeader rfl (by decide) (by decide) (by decide), exKeyOctets_ok, rfl, rfl⟩, exIds⟩

private theorem exStores_ok (magic : Bytes → Str) (H : Digest) : ∀ s ∈ [[exStored H]], ∀ x ∈ s, x.Ok magic (H 2) (· < 4096) := by
  intro s hs x hx
  rw [List.mem_singleton] at hs
  subst hs
  rw [List.mem_singleton] at hx
  subst hx
  exact exStored_ok magic H

private theorem exSearchOpen (magic : Bytes → Str) (H : Digest) (hH : ∀ d, (H 2 d).length = 20) :
    ∃ r, Keyring.open (keyInfo Nat.log2 H) (([exStored H]).map StoredKey.octets).flatten false = .ok r := by
  obtain ⟨r, _, _, h, _⟩ := C120_import_partial magic Nat.log2 (fun _ _ _ => rfl) (· < 4096) exGood H hH .old
    [((exStored H).octets, (exStored H).fingerprint)] (by
      intro x hx
      rw [List.mem_singleton] at hx
      subst hx
      exact ⟨(exStored_ok magic H).1, (exStored_ok magic H).2.1⟩) rfl [] (by simp)
  exact ⟨r, h⟩

/-- The key is found by a part of its user id, and by its fingerprint; not by another name. -/
example (magic : Bytes → Str) (H : Digest) (hH : ∀ d, (H 2 d).length = 20) : ∃ r k, searchKeys Nat.log2 H magic id [⟨[], false, r⟩] none none (some "lé".toList) = .ok [k] ∧
    searchKeys Nat.log2 H magic id [⟨[], false, r⟩] none none (some "Bob".toList) = .ok [] ∧
    searchKeys Nat.log2 H magic id [⟨[], false, r⟩] (some (exStored H).fingerprint) none none = .ok [k] ∧ readKey magic (exFile .old) = .ok k := by
  classical
  obtain ⟨r, hr⟩ := exSearchOpen magic H hH
  have hdb : List.Forall₂ (fun (r : Resource) (s : List StoredKey) => Keyring.open (keyInfo Nat.log2 H) (s.map StoredKey.octets).flatten false = .ok r.ring) [⟨[], false, r⟩] [[exStored H]] :=
    .cons hr .nil
  have hnd : ∀ s ∈ [[exStored H]], (s.map fun x => lastEight x.fingerprint).Nodup := by
    intro s hs; rw [List.mem_singleton.mp hs]; simp
  obtain ⟨f1, a1, a2⟩ := C121_user_id_partial magic Nat.log2 (fun _ _ _ => rfl) (· < 4096) exGood H hH id _ (exStores_ok magic H) hnd _ hdb "lé".toList
  obtain ⟨f2, b1, b2⟩ := C121_user_id_partial magic Nat.log2 (fun _ _ _ => rfl) (· < 4096) exGood H hH id _ (exStores_ok magic H) hnd _ hdb "Bob".toList
  obtain ⟨f3, c1, _, c2⟩ := C121_fingerprint_partial magic Nat.log2 (fun _ _ _ => rfl) (· < 4096) exGood H hH id _ (exStores_ok magic H) hnd _ hdb (exStored H).fingerprint (by
    intro h
    have := congrArg List.length h
    simp [exStored, hexText_length, hH] at this)
  have n1 : (exStored H).Named id "lé".toList := ⟨"Alé!".toList, .head _, ['A'], ['!'], by decide⟩
  have n2 : ¬(exStored H).Named id "Bob".toList := by
    rintro ⟨i, hi, a, b, h⟩
    rw [show i = "Alé!".toList from List.mem_singleton.mp hi] at h
    have : 'B' ∈ "Alé!".toList := by
      have h' : a ++ "Bob".toList ++ b = "Alé!".toList := h
      rw [← h']; simp
    exact absurd this (by decide)
  have e1 : ([[exStored H]].flatten.filter fun x => x.Named id "lé".toList) = [exStored H] := List.filter_cons_of_pos (decide_eq_true n1)
  have e2 : ([[exStored H]].flatten.filter fun x => x.Named id "Bob".toList) = [] := List.filter_cons_of_neg (by simpa using n2)
  have e3 : ([[exStored H]].flatten.filter fun x => lastEight x.fingerprint = lastEight (exStored H).fingerprint) = [exStored H] := by simp
  rw [e1] at a2
  rw [e2] at b2
  rw [e3] at c2
  cases b2
  obtain ⟨k, _, hk, ht, rfl⟩ := List.forall₂_cons_left_iff.mp a2
  cases ht
  obtain ⟨k', _, hk', ht, rfl⟩ := List.forall₂_cons_left_iff.mp c2
  cases ht
  have : k' = k := by
    have := hk'.1
    rw [hk.1] at this
    cases this; rfl
  subst this
  exact ⟨r, k', a1, b1, c1, hk.1⟩

/-- The key is found by its fingerprint and a part of its user id, whatever the key id. -/
example (magic : Bytes → Str) (H : Digest) (hH : ∀ d, (H 2 d).length = 20) : ∃ r k, ∀ kid, searchKeys Nat.log2 H magic id [⟨[], false, r⟩] (some (exStored H).fingerprint) kid (some "lé".toList) = .ok [k] := by
  classical
  obtain ⟨r, hr⟩ := exSearchOpen magic H hH
  have hdb : List.Forall₂ (fun (r : Resource) (s : List StoredKey) => Keyring.open (keyInfo Nat.log2 H) (s.map StoredKey.octets).flatten false = .ok r.ring) [⟨[], false, r⟩] [[exStored H]] :=
    .cons hr .nil
  obtain ⟨f1, a1, _, a2⟩ := C121_both_partial magic Nat.log2 (fun _ _ _ => rfl) (· < 4096) exGood H hH id _ (exStores_ok magic H) (by
    intro s hs; rw [List.mem_singleton.mp hs]; simp) _ hdb (exStored H).fingerprint (by
    intro h
    have := congrArg List.length h
    simp [exStored, hexText_length, hH] at this) "lé".toList
  have n1 : (exStored H).Named id "lé".toList := ⟨"Alé!".toList, .head _, ['A'], ['!'], by decide⟩
  have e1 : ([[exStored H]].flatten.filter fun x => lastEight x.fingerprint = lastEight (exStored H).fingerprint ∧ x.Named id "lé".toList) = [exStored H] :=
    List.filter_cons_of_pos (decide_eq_true ⟨rfl, n1⟩)
  rw [e1] at a2
  obtain ⟨k, _, _, ht, rfl⟩ := List.forall₂_cons_left_iff.mp a2
  cases ht
  exact ⟨r, k, a1⟩

end Pgp.Props
