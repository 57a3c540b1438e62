import Verif.Props.Hex
import Verif.Model.Keyserver
import Verif.Spec.Keyserver
import Verif.Lemmas.Hkp
import Verif.Lemmas.Commands
import Verif.Props.Files
import Verif.Props.SecretFile
import Mathlib.Tactic.Tauto
/-
Property theorems C116: requests to keyservers.
-/
namespace Pgp.Props
open Pgp.Spec

/-! ### taking a URL apart -/

theorem cutAt_all {p : Char → Bool} {s : Str} (h : ∀ c ∈ s, p c = false) : cutAt p s = (s, []) := by
  unfold cutAt
  induction s with
  | nil => rfl
  | cons x s ih =>
    have hx := h x (List.mem_cons_self ..)
    have := ih (fun c hc => h c (List.mem_cons_of_mem _ hc))
    simp only [Prod.mk.injEq] at this ⊢
    simp only [List.takeWhile_cons, List.dropWhile_cons, hx, Bool.not_false, if_true]
    exact ⟨by rw [this.1], this.2⟩

theorem cutAt_at {p : Char → Bool} {a : Str} {c : Char} (b : Str) (h : ∀ c ∈ a, p c = false) (hc : p c = true) : cutAt p (a ++ c :: b) = (a, c :: b) := by
  unfold cutAt
  induction a with
  | nil => simp [hc]
  | cons x a ih =>
    have hx := h x (List.mem_cons_self ..)
    have := ih (fun c hc => h c (List.mem_cons_of_mem _ hc))
    simp only [Prod.mk.injEq] at this ⊢
    simp only [List.cons_append, List.takeWhile_cons, List.dropWhile_cons, hx, Bool.not_false, if_true]
    exact ⟨by rw [this.1], this.2⟩

theorem splitOnce_none {c : Char} {s : Str} (h : c ∉ s) : splitOnce c s = (s, []) := by
  unfold splitOnce
  rw [cutAt_all (by intro x hx; simp only [decide_eq_false_iff_not]; rintro rfl; exact h hx)]
  rfl

theorem splitOnce_some {c : Char} {a b : Str} (h : c ∉ a) : splitOnce c (a ++ c :: b) = (a, b) := by
  unfold splitOnce
  rw [cutAt_at b (by intro x hx; simp only [decide_eq_false_iff_not]; rintro rfl; exact h hx) (by simp)]
  rfl

theorem lowerChar_eq (c : Char) : lowerChar c = c.toLower := by
  unfold lowerChar Char.toLower
  have hA : 'A'.toNat = 65 := rfl
  have hZ : 'Z'.toNat = 90 := rfl
  split
  · rename_i h
    rw [hA, hZ] at h
    have h1 : c.val ≥ 'A'.val ∧ c.val ≤ 'Z'.val := ⟨by rw [ge_iff_le, UInt32.le_iff_toNat_le]; exact h.1, by rw [UInt32.le_iff_toNat_le]; exact h.2⟩
    rw [dif_pos h1]
    apply Char.ext
    apply UInt32.toNat_inj.mp
    have hn : c.toNat + 32 < 0xd800 := by omega
    have e1 : (Char.ofNat (c.toNat + 32)).val.toNat = c.toNat + 32 := by
      exact char_ofNat_toNat_small _ (by omega)
    rw [e1]
    show c.val.toNat + 32 = (c.val + ('a'.val - 'A'.val)).toNat
    rw [UInt32.toNat_add]
    have : ('a'.val - 'A'.val).toNat = 32 := rfl
    rw [this]
    have hc : c.val.toNat = c.toNat := rfl
    omega
  · rename_i h
    rw [dif_neg]
    rintro ⟨h1, h2⟩
    exact h ⟨UInt32.le_iff_toNat_le.mp h1, UInt32.le_iff_toNat_le.mp h2⟩

theorem map_lower (s : Str) : s.map lowerChar = s.map Char.toLower := by rw [show lowerChar = Char.toLower from funext lowerChar_eq]

theorem lower_small {c : Char} (h : 'a'.toNat ≤ (lowerChar c).toNat ∧ (lowerChar c).toNat ≤ 'z'.toNat) : isAsciiLetter c = true := by
  unfold isAsciiLetter
  unfold lowerChar at h
  split at h
  · rename_i h1
    simp only [Bool.or_eq_true, Bool.and_eq_true, decide_eq_true_eq]
    exact .inl h1
  · simp only [Bool.or_eq_true, Bool.and_eq_true, decide_eq_true_eq]
    exact .inr h

theorem letter_not_colon {c : Char} (h : isAsciiLetter c = true) : decide (c = ':') = false := by
  simp only [decide_eq_false_iff_not]
  rintro rfl
  revert h
  decide

/-- A scheme of letters. -/
theorem splitScheme_ok {name s rest : Str} (hn : name ≠ []) (hl : ∀ c ∈ name, 'a'.toNat ≤ c.toNat ∧ c.toNat ≤ 'z'.toNat) (h : SchemeText name s) :
    splitScheme (s ++ ':' :: rest) = (name, rest) := by
  have hm : s.map lowerChar = name := by rw [map_lower]; exact h
  have hs : ∀ c ∈ s, isAsciiLetter c = true := by
    intro c hc
    refine lower_small (hl _ ?_)
    rw [← hm]
    exact List.mem_map_of_mem hc
  unfold splitScheme
  rw [cutAt_at rest (fun c hc => letter_not_colon (hs c hc)) (by simp)]
  cases s with
  | nil => exact absurd hm.symm hn
  | cons c s =>
    show (if _ then _ else _) = _
    rw [if_pos, hm]
    refine ⟨hs c (List.mem_cons_self ..), List.all_eq_true.mpr fun x hx => ?_⟩
    unfold isSchemeChar
    rw [hs x hx]
    rfl

theorem splitNetloc_ok {host rest : Str} (h : HostText host) (hr : rest = [] ∨ ∃ c r, rest = c :: r ∧ c ∈ ['/', '?', '#']) :
    splitNetloc ("//".toList ++ host ++ rest) = (host, rest) := by
  show cutAt (fun c => c = '/' || c = '?' || c = '#') (host ++ rest) = (host, rest)
  have hh : ∀ c ∈ host, (decide (c = '/') || decide (c = '?') || decide (c = '#')) = false := by
    intro c hc
    have := h.2 c hc
    simp only [List.mem_cons, List.not_mem_nil, or_false, not_or] at this
    simp [this.1, this.2.1, this.2.2]
  rcases hr with rfl | ⟨c, r, rfl, hc⟩
  · rw [List.append_nil, cutAt_all hh]
  · refine cutAt_at r hh ?_
    simp only [List.mem_cons, List.not_mem_nil, or_false] at hc
    rcases hc with rfl | rfl | rfl <;> rfl

/-- The path ends where the tail begins. -/
theorem tail_split {path tail : Str} (hp : ∀ c ∈ path, c ∉ ['?', '#']) (ht : TailText tail) :
    ∃ q f, splitOnce '?' (splitOnce '#' (path ++ tail)).1 = (path, q) ∧ (splitOnce '#' (path ++ tail)).2 = f ∧ '#' ∉ q := by
  have h1 : '?' ∉ path := fun h => hp _ h (by simp)
  have h2 : '#' ∉ path := fun h => hp _ h (by simp)
  rcases ht with rfl | ⟨r, rfl | rfl⟩
  · rw [List.append_nil, splitOnce_none h2]
    exact ⟨_, _, splitOnce_none h1, rfl, by simp⟩
  · by_cases hr : '#' ∈ r
    · obtain ⟨a, b, rfl, ha⟩ := List.eq_append_cons_of_mem hr
      have h3 : '#' ∉ path ++ '?' :: a := by simp [h2, ha]
      have e : path ++ '?' :: (a ++ '#' :: b) = (path ++ '?' :: a) ++ '#' :: b := by simp
      rw [e, splitOnce_some h3]
      exact ⟨a, _, splitOnce_some h1, rfl, ha⟩
    · have h3 : '#' ∉ path ++ '?' :: r := by simp [h2, hr]
      rw [splitOnce_none h3]
      exact ⟨r, _, splitOnce_some h1, rfl, hr⟩
  · rw [splitOnce_some h2]
    exact ⟨_, _, splitOnce_none h1, rfl, by simp⟩

theorem splitParams_none {path : Str} (h : ';' ∉ path) : splitParams path = (path, []) := by
  unfold splitParams
  have hl : ';' ∉ (path.reverse.takeWhile (· ≠ '/')).reverse := by
    intro hm
    rw [List.mem_reverse] at hm
    exact h (List.mem_reverse.mp ((List.takeWhile_sublist _).mem hm))
  dsimp only
  rw [splitOnce_none hl]
  have : path = path.take (path.length - (path.reverse.takeWhile (· ≠ '/')).reverse.length) ++ (path.reverse.takeWhile (· ≠ '/')).reverse := by
    have h1 := List.takeWhile_append_dropWhile (p := (· ≠ '/')) (l := path.reverse)
    generalize path.reverse.takeWhile (· ≠ '/') = a at h1 ⊢
    generalize path.reverse.dropWhile (· ≠ '/') = b at h1 ⊢
    have h2 : path = b.reverse ++ a.reverse := by rw [← List.reverse_append, h1, List.reverse_reverse]
    subst h2
    simp
  rw [← this]

/-- What is needed of a path. -/
def GoodPath (path : Str) : Prop := (path = [] ∨ ∃ r, path = '/' :: r) ∧ ∀ c ∈ path, c ∉ ['?', '#', ';']

theorem urlparse_ok {name s host path tail : Str} (hn : name ≠ []) (hl : ∀ c ∈ name, 'a'.toNat ≤ c.toNat ∧ c.toNat ≤ 'z'.toNat) (h : SchemeText name s) (hh : HostText host)
    (hp : GoodPath path) (ht : TailText tail) : ∃ q f, urlparse (s ++ "://".toList ++ host ++ path ++ tail) = ⟨name, host, path, [], q, f⟩ := by
  have e : s ++ "://".toList ++ host ++ path ++ tail = s ++ ':' :: ("//".toList ++ host ++ (path ++ tail)) := by
    show s ++ (':' :: "//".toList) ++ host ++ path ++ tail = _
    simp only [List.append_assoc, List.cons_append]
  have hr : path ++ tail = [] ∨ ∃ c r, path ++ tail = c :: r ∧ c ∈ ['/', '?', '#'] := by
    rcases hp.1 with rfl | ⟨r, rfl⟩
    · rcases ht with rfl | ⟨r, rfl | rfl⟩
      · exact .inl rfl
      · exact .inr ⟨_, _, rfl, by simp⟩
      · exact .inr ⟨_, _, rfl, by simp⟩
    · exact .inr ⟨_, _, rfl, by simp⟩
  obtain ⟨q, f, h1, h2, _⟩ := tail_split (path := path) (tail := tail) (fun c hc hx => hp.2 c hc (by simp only [List.mem_cons, List.not_mem_nil, or_false] at hx ⊢; tauto)) ht
  refine ⟨q, f, ?_⟩
  unfold urlparse
  rw [e, splitScheme_ok hn hl h]
  dsimp only
  rw [splitNetloc_ok hh hr]
  dsimp only
  rw [h1, h2]
  dsimp only
  rw [splitParams_none (fun hc => hp.2 _ hc (by simp))]
  split <;> rfl

theorem urlunparse_ok {name host path q f : Str} (hh : host ≠ []) (hp : path = [] ∨ ∃ r, path = '/' :: r) :
    ∃ tail, TailText tail ∧ (q = [] → f = [] → tail = []) ∧ urlunparse ⟨name, host, path, [], q, f⟩ = name ++ "://".toList ++ host ++ path ++ tail := by
  have e1 : (if path ≠ [] ∧ path.take 1 ≠ ['/'] then '/' :: path else path) = path := by
    rw [if_neg]
    rcases hp with rfl | ⟨r, rfl⟩ <;> simp
  have e2 : urlunparse ⟨name, host, path, [], q, f⟩ = (let url := name ++ ':' :: ("//".toList ++ host ++ path); let url := if q ≠ [] then url ++ '?' :: q else url; if f ≠ [] then url ++ '#' :: f else url) := by
    unfold urlunparse
    dsimp only
    rw [show (if ([] : Str) ≠ [] then path ++ [';'] else path) = path from if_neg (by simp), if_pos (show host ≠ [] ∨ path.take 2 ≠ ['/', '/'] from .inl hh), e1]
  have e3 : name ++ ':' :: ("//".toList ++ host ++ path) = name ++ "://".toList ++ host ++ path := by
    show _ = name ++ (':' :: "//".toList) ++ host ++ path
    simp only [List.append_assoc, List.cons_append]
  rw [e2, e3]
  generalize name ++ "://".toList ++ host ++ path = u
  dsimp only
  by_cases hq : q = []
  · by_cases hf : f = []
    · exact ⟨[], .inl rfl, fun _ _ => rfl, by simp [hq, hf]⟩
    · exact ⟨'#' :: f, .inr ⟨f, .inr rfl⟩, fun _ h => absurd h hf, by simp [hq, hf]⟩
  · by_cases hf : f = []
    · exact ⟨'?' :: q, .inr ⟨q, .inl rfl⟩, fun h => absurd h hq, by simp [hq, hf]⟩
    · exact ⟨'?' :: (q ++ '#' :: f), .inr ⟨_, .inl rfl⟩, fun h => absurd h hq, by simp [hq, hf]⟩

/-! ### the path of the request -/

theorem split_dirs (dirs : List Str) (file : Str) (hd : ∀ d ∈ dirs, '/' ∉ d) (hf : '/' ∉ file) : pySplit '/' (dirs.flatMap (· ++ ['/']) ++ file) = dirs ++ [file] := by
  induction dirs with
  | nil => exact pySplit_of_not_mem _ _ hf
  | cons d dirs ih =>
    rw [List.flatMap_cons, List.append_assoc, List.append_assoc, List.singleton_append, pySplit_append _ _ _ (hd d (List.mem_cons_self ..)),
      ih (fun x hx => hd x (List.mem_cons_of_mem _ hx))]
    rfl

theorem resolve_append (acc l l' : List Str) : resolveSegments acc (l ++ l') = resolveSegments (resolveSegments acc l) l' := by
  induction l generalizing acc with
  | nil => rfl
  | cons s l ih =>
    rw [List.cons_append, resolveSegments, resolveSegments]
    split
    · exact ih _
    · split
      · exact ih _
      · exact ih _

theorem resolve_plain (acc segs : List Str) (h : ∀ s ∈ segs, s ≠ "..".toList ∧ s ≠ ".".toList) : resolveSegments acc segs = acc ++ segs := by
  induction segs generalizing acc with
  | nil => simp [resolveSegments]
  | cons s segs ih =>
    obtain ⟨h1, h2⟩ := h s (List.mem_cons_self ..)
    rw [resolveSegments, if_neg h1, if_neg h2, ih _ (fun x hx => h x (List.mem_cons_of_mem _ hx))]
    simp

/-- The characters of the steps of a path, and of the directories they lead to. -/
theorem steps_chars {w dirs : List Str} (h : Steps w dirs) : (∀ s ∈ w, ∀ c ∈ s, c ∉ ['/', '?', '#', ';']) ∧ ∀ d ∈ dirs, DirText d := by
  induction h with
  | nil => exact ⟨by simp, by simp⟩
  | down d h hd ih =>
    refine ⟨fun s hs => ?_, fun s hs => ?_⟩
    · rcases List.mem_append.mp hs with hs | hs
      · exact ih.1 s hs
      · rw [List.mem_singleton.mp hs]; exact hd.2.2.2
    · rcases List.mem_append.mp hs with hs | hs
      · exact ih.2 s hs
      · rw [List.mem_singleton.mp hs]; exact hd
  | up h ih =>
    refine ⟨fun s hs => ?_, fun s hs => ih.2 s ((List.dropLast_subset _) hs)⟩
    rcases List.mem_append.mp hs with hs | hs
    · exact ih.1 s hs
    · rw [List.mem_singleton.mp hs]; decide
  | stay h ih =>
    refine ⟨fun s hs => ?_, ih.2⟩
    rcases List.mem_append.mp hs with hs | hs
    · exact ih.1 s hs
    · rw [List.mem_singleton.mp hs]; decide
  | empty h ih =>
    refine ⟨fun s hs => ?_, ih.2⟩
    rcases List.mem_append.mp hs with hs | hs
    · exact ih.1 s hs
    · rw [List.mem_singleton.mp hs]; decide

/-- Resolving steps gives the directories, with the root unless a step has gone above it. -/
theorem resolve_steps {w dirs : List Str} (h : Steps w dirs) : resolveSegments [[]] (w.filter (· ≠ [])) = [] :: dirs ∨ resolveSegments [[]] (w.filter (· ≠ [])) = dirs := by
  induction h with
  | nil => exact .inl rfl
  | @down w dirs d h hd ih =>
    have e : (w ++ [d]).filter (· ≠ []) = w.filter (· ≠ []) ++ [d] := by rw [List.filter_append]; simp [hd.1]
    rw [e, resolve_append]
    have e2 : ∀ acc : List Str, resolveSegments acc [d] = acc ++ [d] := fun acc => resolve_plain acc [d] (by
      intro s hs; rw [List.mem_singleton.mp hs]; exact ⟨hd.2.2.1, hd.2.1⟩)
    rw [e2]
    rcases ih with ih | ih <;> rw [ih]
    · exact .inl rfl
    · exact .inr rfl
  | @up w dirs h ih =>
    have e : (w ++ [['.', '.']]).filter (· ≠ []) = w.filter (· ≠ []) ++ [['.', '.']] := by rw [List.filter_append]; simp
    rw [e, resolve_append]
    have e2 : ∀ acc : List Str, resolveSegments acc [['.', '.']] = acc.dropLast := fun acc => rfl
    rw [e2]
    rcases ih with ih | ih <;> rw [ih]
    · cases dirs with
      | nil => exact .inr rfl
      | cons d dirs => exact .inl rfl
    · exact .inr rfl
  | @stay w dirs h ih =>
    have e : (w ++ [['.']]).filter (· ≠ []) = w.filter (· ≠ []) ++ [['.']] := by rw [List.filter_append]; simp
    rw [e, resolve_append]
    exact ih
  | @empty w dirs h ih =>
    have e : (w ++ [[]]).filter (· ≠ []) = w.filter (· ≠ []) := by rw [List.filter_append]; simp
    rw [e]
    exact ih

theorem join_more (dirs : List Str) (a b : Str) : ∀ w : Str, pyJoin ['/'] (w :: (dirs ++ [a, b])) = w ++ '/' :: (dirs.flatMap (· ++ ['/']) ++ (a ++ '/' :: b)) := by
  induction dirs with
  | nil => intro w; simp [pyJoin]
  | cons d dirs ih =>
    intro w
    rw [List.cons_append, pyJoin, ih d]
    simp

theorem join_dirs (dirs : List Str) (a b : Str) : pyJoin ['/'] ([] :: (dirs ++ [a, b])) = dirsText dirs ++ a ++ '/' :: b := by
  rw [join_more, dirsText]
  simp

theorem join_rootless (dirs : List Str) (a b : Str) : dirsText dirs ++ a ++ '/' :: b = '/' :: pyJoin ['/'] (dirs ++ [a, b]) := by
  cases dirs with
  | nil => simp [pyJoin, dirsText]
  | cons d dirs =>
    rw [List.cons_append, join_more, dirsText]
    simp

theorem joinPath_ok {dirs : List Str} {path : Str} (h : PathText dirs path) (a b : Str) (ha : a ≠ [] ∧ a ≠ "..".toList ∧ a ≠ ".".toList ∧ '/' ∉ a)
    (hb : b ≠ "..".toList ∧ b ≠ ".".toList) : joinPath path a b = dirsText dirs ++ a ++ '/' :: b ∨
      (dirsText dirs ++ a ++ '/' :: b = '/' :: joinPath path a b ∧ joinPath path a b ≠ [] ∧ (joinPath path a b).take 1 ≠ ['/']) := by
  -- the segments before the relative path
  obtain ⟨parts, w, hparts, hfilter, hw⟩ : ∃ (parts w : List Str), (let p := pySplit '/' path; if p.getLast? ≠ some [] then p.dropLast else p) = [] :: parts ∧
      parts.filter (· ≠ []) = w.filter (· ≠ []) ∧ Steps w dirs := by
    cases h with
    | none => exact ⟨[], [], rfl, rfl, .nil⟩
    | path w _ file hd hf =>
      have hs : pySplit '/' (dirsText w ++ file) = ([] :: w) ++ [file] := by
        have : pySplit '/' (dirsText w ++ file) = [] :: pySplit '/' (w.flatMap (· ++ ['/']) ++ file) := rfl
        rw [this, split_dirs w file (fun s hs hc => (steps_chars hd).1 s hs _ hc (by simp)) (fun hc => hf _ hc (by simp))]
        rfl
      dsimp only
      rw [hs, List.getLast?_append, List.dropLast_concat]
      by_cases hfile : file = []
      · subst hfile
        exact ⟨w ++ [[]], w, by simp, by rw [List.filter_append]; simp, hd⟩
      · exact ⟨w, w, by simp [hfile], rfl, hd⟩
  have hd := (steps_chars hw).2
  have e : List.take 1 ([] :: parts ++ [a, b]) ++ List.filter (fun x => decide (x ≠ [])) (List.drop 1 ([] :: parts ++ [a, b])).dropLast ++ [b] = [[]] ++ w.filter (· ≠ []) ++ [a, b] := by
    have e1 : List.drop 1 ([] :: parts ++ [a, b]) = (parts ++ [a]) ++ [b] := by simp
    rw [e1, List.dropLast_concat, List.filter_append, hfilter]
    simp [ha.1]
  have e2 : ∀ acc : List Str, resolveSegments acc [a, b] = acc ++ [a, b] := fun acc => resolve_plain acc [a, b] (by
    intro s hs
    simp only [List.mem_cons, List.not_mem_nil, or_false] at hs
    rcases hs with rfl | rfl
    · exact ⟨ha.2.1, ha.2.2.1⟩
    · exact hb)
  have e3 : joinPath path a b = (if pyJoin ['/'] (resolveSegments [[]] (w.filter (· ≠ [])) ++ [a, b]) = [] then ['/'] else pyJoin ['/'] (resolveSegments [[]] (w.filter (· ≠ [])) ++ [a, b])) := by
    unfold joinPath
    dsimp only at hparts ⊢
    rw [hparts, e, resolve_append, e2, resolve_append, show resolveSegments [] [[]] = [[]] from rfl]
  rw [e3]
  rcases resolve_steps hw with h1 | h1 <;> rw [h1]
  · left
    rw [List.cons_append, join_dirs, if_neg]
    rw [dirsText]
    simp
  · right
    have hne : pyJoin ['/'] (dirs ++ [a, b]) ≠ [] ∧ (pyJoin ['/'] (dirs ++ [a, b])).take 1 ≠ ['/'] := by
      have key : ∀ (x : Str) (rest : List Char), x ≠ [] → '/' ∉ x → x ++ rest ≠ [] ∧ (x ++ rest).take 1 ≠ ['/'] := by
        intro x rest h1 h2
        cases x with
        | nil => exact absurd rfl h1
        | cons c x =>
          refine ⟨by simp, fun hc => h2 ?_⟩
          simp only [List.cons_append, List.take_succ_cons, List.take_zero, List.cons.injEq, and_true] at hc
          simp [hc]
      cases dirs with
      | nil => rw [show pyJoin ['/'] ([] ++ [a, b]) = a ++ '/' :: b by simp [pyJoin]]; exact key a ('/' :: b) ha.1 ha.2.2.2
      | cons d dirs =>
        rw [List.cons_append, join_more]
        have := hd d (List.mem_cons_self ..)
        exact key d _ this.1 fun hc => this.2.2.2 _ hc (by simp)
    rw [if_neg hne.1]
    exact ⟨join_rootless dirs a b, hne⟩

/-- The slash between host and path may be missing. -/
theorem urlunparse_slash {name host path q f : Str} (hh : host ≠ []) (h1 : path ≠ []) (h2 : path.take 1 ≠ ['/']) :
    urlunparse ⟨name, host, path, [], q, f⟩ = urlunparse ⟨name, host, '/' :: path, [], q, f⟩ := by
  unfold urlunparse
  dsimp only
  rw [show (if ([] : Str) ≠ [] then path ++ [';'] else path) = path from if_neg (by simp), show (if ([] : Str) ≠ [] then '/' :: path ++ [';'] else '/' :: path) = '/' :: path from if_neg (by simp),
    if_pos (show host ≠ [] ∨ path.take 2 ≠ ['/', '/'] from .inl hh), if_pos (show host ≠ [] ∨ ('/' :: path).take 2 ≠ ['/', '/'] from .inl hh), if_pos (show path ≠ [] ∧ path.take 1 ≠ ['/'] from ⟨h1, h2⟩),
    if_neg (show ¬ ('/' :: path ≠ [] ∧ ('/' :: path).take 1 ≠ ['/']) by simp)]

theorem goodPath {dirs : List Str} {path : Str} (h : PathText dirs path) : GoodPath path := by
  cases h with
  | none => exact ⟨.inl rfl, by simp⟩
  | path w _ file hd hf =>
    refine ⟨.inr ⟨_, rfl⟩, ?_⟩
    intro c hc hx
    rw [dirsText] at hc
    simp only [List.cons_append, List.mem_cons, List.mem_append, List.mem_flatMap, List.not_mem_nil, or_false] at hc
    simp only [List.mem_cons, List.not_mem_nil, or_false] at hx
    rcases hc with rfl | ⟨d, hdm, hc | rfl⟩ | hc
    · revert hx; decide
    · exact (steps_chars hd).1 d hdm c hc (by simp only [List.mem_cons, List.not_mem_nil, or_false]; tauto)
    · revert hx; decide
    · exact hf c hc (by simp only [List.mem_cons, List.not_mem_nil, or_false]; tauto)

/-- The letters of a scheme. -/
theorem scheme_letters {name : Str} (h : name ∈ ["hkp".toList, "hkps".toList, "http".toList, "https".toList]) : name ≠ [] ∧ ∀ c ∈ name, 'a'.toNat ≤ c.toNat ∧ c.toNat ≤ 'z'.toNat := by
  simp only [List.mem_cons, List.not_mem_nil, or_false] at h
  rcases h with rfl | rfl | rfl | rfl <;> decide

/-- The URLs of the requests of the client for a URL. -/
theorem client_urls {name s host path tail : Str} {dirs : List Str} (hn : name ∈ ["hkp".toList, "hkps".toList, "http".toList, "https".toList])
    (h : SchemeText name s) (hh : HostText host) (hp : PathText dirs path) (ht : TailText tail) :
    ∃ base, getKeyserver (s ++ "://".toList ++ host ++ path ++ tail) = some base ∧
      lookupUrl base = (if name = "hkps".toList then "https".toList else "http".toList) ++ "://".toList ++ host ++ dirsText dirs ++ "pks/lookup".toList ∧
      submitUrl base = (if name = "hkps".toList then "https".toList else "http".toList) ++ "://".toList ++ host ++ dirsText dirs ++ "pks/add".toList := by
  obtain ⟨n1, n2⟩ := scheme_letters hn
  obtain ⟨q, f, h1⟩ := urlparse_ok n1 n2 h hh (goodPath hp) ht
  obtain ⟨S, hS, hSe⟩ : ∃ S, S ∈ ["hkp".toList, "hkps".toList, "http".toList, "https".toList] ∧ (if name = "hkps".toList then "https".toList else "http".toList) = S := by
    split
    · exact ⟨_, by simp, rfl⟩
    · exact ⟨_, by simp, rfl⟩
  obtain ⟨m1, m2⟩ := scheme_letters hS
  rw [hSe]
  obtain ⟨tail', ht', _, h2⟩ := urlunparse_ok (name := S) (host := host) (path := path) (q := q) (f := f) hh.1 (goodPath hp).1
  obtain ⟨q', f', h3⟩ := urlparse_ok (s := S) (tail := tail') m1 m2 (show S.map Char.toLower = S by
    simp only [List.mem_cons, List.not_mem_nil, or_false] at hS
    rcases hS with rfl | rfl | rfl | rfl <;> decide) hh (goodPath hp) ht'
  refine ⟨clientBase (s ++ "://".toList ++ host ++ path ++ tail), ?_, ?_, ?_⟩
  · unfold getKeyserver
    rw [h1]
    dsimp only
    rw [if_pos (by simpa only [List.mem_cons, List.not_mem_nil, or_false] using hn)]
  · unfold clientBase lookupUrl urljoin
    rw [h1]
    dsimp only
    rw [hSe, h2, h3]
    dsimp only
    have hj := joinPath_ok hp "pks".toList "lookup".toList ⟨by decide, by decide, by decide, by decide⟩ ⟨by decide, by decide⟩
    have e : urlunparse ⟨S, host, joinPath path "pks".toList "lookup".toList, [], [], []⟩ = urlunparse ⟨S, host, dirsText dirs ++ "pks".toList ++ '/' :: "lookup".toList, [], [], []⟩ := by
      rcases hj with hj | ⟨hj, hj1, hj2⟩
      · rw [hj]
      · rw [urlunparse_slash hh.1 hj1 hj2, ← hj]
    rw [e]
    obtain ⟨t, _, h4, h5⟩ := urlunparse_ok (name := S) (host := host) (path := dirsText dirs ++ "pks".toList ++ '/' :: "lookup".toList) (q := []) (f := []) hh.1 (.inr ⟨_, rfl⟩)
    rw [h5, h4 rfl rfl, List.append_nil]
    show _ = S ++ "://".toList ++ host ++ dirsText dirs ++ ("pks".toList ++ '/' :: "lookup".toList)
    simp only [List.append_assoc]
  · unfold clientBase submitUrl urljoin
    rw [h1]
    dsimp only
    rw [hSe, h2, h3]
    dsimp only
    have hj := joinPath_ok hp "pks".toList "add".toList ⟨by decide, by decide, by decide, by decide⟩ ⟨by decide, by decide⟩
    have e : urlunparse ⟨S, host, joinPath path "pks".toList "add".toList, [], [], []⟩ = urlunparse ⟨S, host, dirsText dirs ++ "pks".toList ++ '/' :: "add".toList, [], [], []⟩ := by
      rcases hj with hj | ⟨hj, hj1, hj2⟩
      · rw [hj]
      · rw [urlunparse_slash hh.1 hj1 hj2, ← hj]
    rw [e]
    obtain ⟨t, _, h4, h5⟩ := urlunparse_ok (name := S) (host := host) (path := dirsText dirs ++ "pks".toList ++ '/' :: "add".toList) (q := []) (f := []) hh.1 (.inr ⟨_, rfl⟩)
    rw [h5, h4 rfl rfl, List.append_nil]
    show _ = S ++ "://".toList ++ host ++ dirsText dirs ++ ("pks".toList ++ '/' :: "add".toList)
    simp only [List.append_assoc]

/-- C116 (part that holds): for `hkp`, `hkps` and `http` URLs, in any case of the scheme, requests go to that host, over TLS for `hkps`, and below the directory the URL names. -/
theorem C116_request_url_partial (name s host path tail : Str) (dirs : List Str) (hn : name ∈ ["hkp".toList, "hkps".toList, "http".toList]) (h : SchemeText name s)
    (hh : HostText host) (hp : PathText dirs path) (ht : TailText tail) :
    ∃ base, getKeyserver (s ++ "://".toList ++ host ++ path ++ tail) = some base ∧
      lookupUrl base = (if name = "hkps".toList then "https".toList else "http".toList) ++ "://".toList ++ host ++ dirsText dirs ++ "pks/lookup".toList ∧
      submitUrl base = (if name = "hkps".toList then "https".toList else "http".toList) ++ "://".toList ++ host ++ dirsText dirs ++ "pks/add".toList :=
  client_urls (by simp only [List.mem_cons, List.not_mem_nil, or_false] at hn ⊢; tauto) h hh hp ht

example := C116_request_url_partial "hkps".toList "HKPs".toList "keys.example.org:443".toList "/../a/b/.././/c/x".toList "?y#z".toList ["a".toList, "c".toList]
  (by simp) (by unfold SchemeText; decide) ⟨by decide, by decide⟩ (.path ["..".toList, "a".toList, "b".toList, "..".toList, ".".toList, [], "c".toList] _ "x".toList
    (.down (w := [_, _, _, _, _, _]) "c".toList (.empty (w := [_, _, _, _, _]) (.stay (w := [_, _, _, _]) (.up (w := [_, _, _]) (dirs := ["a".toList, "b".toList])
      (.down (w := [_, _]) (dirs := ["a".toList]) "b".toList (.down (w := [_]) (dirs := []) "a".toList (.up (w := []) .nil) (by unfold DirText; decide)) (by unfold DirText; decide))))) (by unfold DirText; decide)) (by decide)) (.inr ⟨"y#z".toList, .inl rfl⟩)

/-- C116 fails: keys are asked for and sent in the clear when the URL says `https`. -/
theorem C116_https_refuted (s host path tail : Str) (dirs : List Str) (h : SchemeText "https".toList s) (hh : HostText host) (hp : PathText dirs path) (ht : TailText tail) :
    ∃ base, getKeyserver (s ++ "://".toList ++ host ++ path ++ tail) = some base ∧ lookupUrl base = "http://".toList ++ host ++ dirsText dirs ++ "pks/lookup".toList ∧
      submitUrl base = "http://".toList ++ host ++ dirsText dirs ++ "pks/add".toList := by
  obtain ⟨base, h1, h2, h3⟩ := client_urls (by simp) h hh hp ht
  exact ⟨base, h1, h2, h3⟩

example := C116_https_refuted "https".toList "keys.example.org".toList [] [] [] (by unfold SchemeText; decide) ⟨by decide, by decide⟩ .none (.inl rfl)

/-- C116 fails: a `hkp` URL without a port does not mean the port of the protocol, 11371, but that of HTTP. -/
theorem C116_hkp_port_refuted (s host : Str) (h : SchemeText "hkp".toList s) (hh : HostText host) :
    ∃ base, getKeyserver (s ++ "://".toList ++ host) = some base ∧ lookupUrl base = "http://".toList ++ host ++ "/pks/lookup".toList := by
  obtain ⟨base, h1, h2, _⟩ := client_urls (tail := []) (by simp) h hh .none (.inl rfl)
  rw [List.append_nil, List.append_nil] at h1
  refine ⟨base, h1, h2.trans ?_⟩
  show "http".toList ++ "://".toList ++ host ++ ['/'] ++ "pks/lookup".toList = "http".toList ++ "://".toList ++ host ++ (['/'] ++ "pks/lookup".toList)
  simp only [List.append_assoc]

example := C116_hkp_port_refuted "hkp".toList "keys.example.org".toList (by unfold SchemeText; decide) ⟨by decide, by decide⟩

/-- C116: there is no client for URLs with other schemes. -/
theorem C116_other_scheme (name s rest : Str) (hn : name ∉ ["hkp".toList, "hkps".toList, "http".toList, "https".toList]) (h0 : name ≠ [])
    (hl : ∀ c ∈ name, 'a'.toNat ≤ c.toNat ∧ c.toNat ≤ 'z'.toNat) (h : SchemeText name s) : getKeyserver (s ++ ':' :: rest) = none := by
  have hs : (urlparse (s ++ ':' :: rest)).scheme = name := by
    unfold urlparse
    rw [splitScheme_ok h0 hl h]
    dsimp only
    split <;> rfl
  unfold getKeyserver
  rw [hs]
  exact if_neg (by simpa only [List.mem_cons, List.not_mem_nil, or_false] using hn)

example := C116_other_scheme "ldap".toList "ldap".toList "//keys.example.org".toList (by decide) (by decide) (by decide) (by unfold SchemeText; decide)

/-! ### forms -/

theorem hex_one (x : UInt8) : hexText [x] = [hexDigit (x.toNat / 16), hexDigit (x.toNat % 16)] := (hexOf_eq_hexText [x]).symm

theorem octet_form : ∀ n : Fin 256, (32 < n.val ∧ n.val < 127 ∧ Char.ofNat n.val ∉ ['+', '%', '&', '=', '#']) ∨
    ¬ ((48 ≤ n.val && n.val ≤ 57) || (65 ≤ n.val && n.val ≤ 90) || (97 ≤ n.val && n.val ≤ 122) || n.val = 95 || n.val = 46 || n.val = 45 || n.val = 126) = true := by decide +kernel

theorem quotePlus_form (s : Str) : FormOctets (utf8Encode s) (quotePlus s) := by
  unfold quotePlus
  generalize utf8Encode s = b
  induction b with
  | nil => exact .nil
  | cons x b ih =>
    rw [List.flatMap_cons]
    dsimp only
    split
    · rename_i h
      have : x = 32 := UInt8.toNat_inj.mp h
      subst this
      exact .space ih
    · split
      · rename_i h
        rcases octet_form ⟨x.toNat, x.toNat_lt⟩ with ⟨h1, h2, h3⟩ | hn
        · exact .plain x h1 h2 h3 ih
        · exact absurd h hn
      · have := FormOctets.hex x ih
        rw [hex_one] at this
        exact this

theorem urlencode_form : ∀ (p : Str × Str) (ps : List (Str × Str)), FormText (p :: ps) (urlencode (p :: ps))
  | p, [] => .one (quotePlus_form _) (quotePlus_form _)
  | p, q :: ps => by
    have h := urlencode_form q ps
    have e : urlencode (p :: q :: ps) = quotePlus p.1 ++ '=' :: quotePlus p.2 ++ '&' :: urlencode (q :: ps) := by
      show (quotePlus p.1 ++ '=' :: quotePlus p.2) ++ ['&'] ++ urlencode (q :: ps) = _
      simp
    rw [e]
    exact .more (quotePlus_form _) (quotePlus_form _) h

theorem hex_chars : ∀ n : Fin 16, hexDigit n.val ∉ ['+', '%', '&', '=', '#'] := by decide +kernel

theorem form_chars {b : Bytes} {s : Str} (h : FormOctets b s) : '&' ∉ s ∧ '=' ∉ s ∧ '#' ∉ s := by
  induction h with
  | nil => simp
  | space h ih => simpa using ih
  | hex x h ih =>
    have h1 := hex_chars ⟨x.toNat / 16, by have := x.toNat_lt; omega⟩
    have h2 := hex_chars ⟨x.toNat % 16, by omega⟩
    simp only [List.mem_cons, List.not_mem_nil, or_false, not_or] at h1 h2
    rw [hex_one]
    simp only [List.cons_append, List.nil_append, List.mem_cons, not_or]
    exact ⟨⟨by decide, Ne.symm h1.2.2.1, Ne.symm h2.2.2.1, ih.1⟩, ⟨by decide, Ne.symm h1.2.2.2.1, Ne.symm h2.2.2.2.1, ih.2.1⟩, by decide, Ne.symm h1.2.2.2.2, Ne.symm h2.2.2.2.2, ih.2.2⟩
  | plain x h1 h2 h3 h ih =>
    simp only [List.mem_cons, List.not_mem_nil, or_false, not_or] at h3 ⊢
    exact ⟨⟨Ne.symm h3.2.2.1, ih.1⟩, ⟨Ne.symm h3.2.2.2.1, ih.2.1⟩, Ne.symm h3.2.2.2.2, ih.2.2⟩

theorem form_octets_unique {a b : Bytes} {s : Str} (ha : FormOctets a s) (hb : FormOctets b s) : a = b := by
  induction ha generalizing b with
  | nil => generalize hs : ([] : Str) = s at hb; cases hb <;> first | rfl | cases hs
  | @space a s _ ih =>
    generalize hs : '+' :: s = t at hb
    cases hb with
    | nil => cases hs
    | space h => cases hs; rw [ih h]
    | hex x h => cases hs
    | plain y h1 h2 h3 h =>
      simp only [List.cons.injEq] at hs
      rw [← hs.1] at h3
      exact absurd (by simp) h3
  | @hex x a s _ ih =>
    generalize hs : '%' :: hexText [x] ++ s = t at hb
    cases hb with
    | nil => cases hs
    | space h => cases hs
    | hex y h =>
      simp only [List.cons_append, List.cons.injEq, true_and] at hs
      have hl : (hexText [x]).length = (hexText [y]).length := by rw [hex_one, hex_one]; rfl
      obtain ⟨h1, h2⟩ := List.append_inj hs hl
      have := hexText_inj h1
      cases this
      subst h2
      rw [ih h]
    | plain y h1 h2 h3 h =>
      simp only [List.cons_append, List.cons.injEq] at hs
      rw [← hs.1] at h3
      exact absurd (by simp) h3
  | @plain x a s h1 h2 h3 _ ih =>
    generalize hs : Char.ofNat x.toNat :: s = t at hb
    cases hb with
    | nil => cases hs
    | space h =>
      simp only [List.cons.injEq] at hs
      rw [hs.1] at h3
      exact absurd (by simp) h3
    | hex y h =>
      simp only [List.cons_append, List.cons.injEq] at hs
      rw [hs.1] at h3
      exact absurd (by simp) h3
    | plain y g1 g2 g3 h =>
      simp only [List.cons.injEq] at hs
      obtain ⟨e, rfl⟩ := hs
      have e1 := char_ofNat_toNat_small x.toNat (by omega)
      have e2 := char_ofNat_toNat_small y.toNat (by omega)
      have : x = y := UInt8.toNat_inj.mp (by rw [← e1, ← e2, e])
      rw [this, ih h]

theorem split_char {x : Char} {a b s t : Str} (ha : x ∉ a) (hb : x ∉ b) (h : a ++ x :: s = b ++ x :: t) : a = b ∧ s = t := by
  have h1 := splitOnce_some (c := x) (b := s) ha
  rw [h, splitOnce_some hb] at h1
  simp only [Prod.mk.injEq] at h1
  exact ⟨h1.1.symm, h1.2.symm⟩

theorem form_value_unique {v w s : Str} (h1 : FormOctets (utf8Encode v) s) (h2 : FormOctets (utf8Encode w) s) : v = w := utf8Encode_inj (form_octets_unique h1 h2)

/-- C116: a form has no second reading. -/
theorem C116_form_unique (ps qs : List (Str × Str)) (s : Str) (hp : FormText ps s) (hq : FormText qs s) : ps = qs := by
  induction hp generalizing qs with
  | @one k v a b hk hv =>
    generalize hs : a ++ '=' :: b = s at hq
    cases hq with
    | @one k' v' a' b' hk' hv' =>
      obtain ⟨rfl, rfl⟩ := split_char (form_chars hk).2.1 (form_chars hk').2.1 hs
      rw [form_value_unique hk hk', form_value_unique hv hv']
    | @more k' v' a' b' s' q ps hk' hv' h =>
      rw [List.append_assoc] at hs
      obtain ⟨rfl, rfl⟩ := split_char (form_chars hk).2.1 (form_chars hk').2.1 hs
      exact absurd (by simp) (form_chars hv).1
  | @more k v a b s q ps hk hv h ih =>
    generalize hs : a ++ '=' :: b ++ '&' :: s = t at hq
    cases hq with
    | @one k' v' a' b' hk' hv' =>
      rw [List.append_assoc] at hs
      obtain ⟨rfl, rfl⟩ := split_char (form_chars hk).2.1 (form_chars hk').2.1 hs
      exact absurd (by simp) (form_chars hv').1
    | @more k' v' a' b' s' q' ps' hk' hv' h' =>
      rw [List.append_assoc, List.append_assoc] at hs
      obtain ⟨rfl, e⟩ := split_char (form_chars hk).2.1 (form_chars hk').2.1 hs
      obtain ⟨rfl, rfl⟩ := split_char (form_chars hv).1 (form_chars hv').1 e
      rw [form_value_unique hk hk', form_value_unique hv hv', ih _ h']

example (p : Str × Str) (ps : List (Str × Str)) := C116_form_unique (p :: ps) (p :: ps) _ (urlencode_form p ps) (urlencode_form p ps)

/-- C116: a search asks the server for exactly the given terms, whatever characters are in them. -/
theorem C116_search_request (base terms : Str) (exact : Bool) : ∃ q, searchRequest base terms exact = ⟨lookupUrl base ++ '?' :: q, none⟩ ∧
    FormText [("op".toList, "index".toList), ("options".toList, "mr".toList), ("search".toList, terms), ("exact".toList, (if exact then "yes" else "no").toList)] q := by
  refine ⟨_, rfl, ?_⟩
  cases exact
  · exact urlencode_form _ _
  · exact urlencode_form _ _

example := C116_search_request "http://keys.example.org".toList "Alice & Bob <a+b@example.org>".toList true

/-- C116: to get a key the server is asked for exactly the given identifier. -/
theorem C116_get_request (magic : Bytes → Str) (base keyId : Str) (exact : Bool) (content : Bytes) : ∃ q, (keyserverGet magic base keyId exact content).1 = ⟨lookupUrl base ++ '?' :: q, none⟩ ∧
    FormText [("op".toList, "get".toList), ("search".toList, "0x".toList ++ keyId), ("options".toList, "mr".toList), ("exact".toList, (if exact then "yes" else "no").toList)] q := by
  refine ⟨_, rfl, ?_⟩
  cases exact
  · exact urlencode_form _ _
  · exact urlencode_form _ _

example (magic : Bytes → Str) := C116_get_request magic "http://keys.example.org".toList "DEADBEEF".toList true []

/-- The armored text of the octets. -/
theorem key_text (data : Bytes) : ∃ text, ({ dataType := .publicKey, data := data } : Armor).toStr = .ok text ∧
    (∀ flag, inputOctets flag (.octets (utf8Encode text)) = .ok data) ∧ ∃ a, fromAscii text = .ok a ∧ a.data = data := by
  have hs : Storable { dataType := .publicKey, data := data } := keyArmor_storable _ _ _ (.inl rfl)
  obtain ⟨text, h1, h2⟩ := C88_armor_partial _ hs
  obtain ⟨text', h3, h4⟩ := C17_armor_roundtrip _ hs
  have : text = text' := by rw [h1] at h3; cases h3; rfl
  subst this
  refine ⟨text, h1, fun flag => (h2 flag).2 ?_, _, h4, rfl⟩
  constructor <;> (intro v h; cases h)

/-- C116 (part that holds): a public key that was submitted is received unchanged by whoever gets it from the server. -/
theorem C116_submit_get_partial (magic : Bytes → Str) (fl : Nat → Nat) (good : Nat → Prop) (hg : ∀ i, good i → LogRoom fl i ∧ (0 < i → fl i = Nat.log2 i))
    (F : HeaderFormat → Prop) (data : Bytes) (h : PublicKeyFile magic F good data) (base : Str) (noModify : Bool) :
    ∃ k text q, readKey magic data = .ok k ∧ submitRequest fl base k noModify = .ok ⟨submitUrl base, some q⟩ ∧
      FormText [("keytext".toList, text), ("options".toList, (if noModify then "mr,nm" else "mr").toList)] q ∧
      ∀ base' keyId exact, (keyserverGet magic base' keyId exact (utf8Encode text)).2 = .ok k := by
  obtain ⟨k, h1, h2⟩ := C83_import_export_partial magic fl good hg F data h
  obtain ⟨text, h3, h4, _⟩ := key_text data
  refine ⟨k, text, _, h1, by simp only [submitRequest, h2, h3, except_bind_ok]; rfl, urlencode_form _ _, fun base' keyId exact => ?_⟩
  simp only [keyserverGet, readKeyAny, h4, except_bind_ok, h1]

example (F : HeaderFormat) (magic : Bytes → Str) (base : Str) := C116_submit_get_partial magic Nat.log2 (· < 4096) exGood (· = F) (exFile F) (exFile_ok magic F) base true

/-- C116 fails: the key that is returned is whatever the server sends, whichever key was asked for: no identifier is compared. -/
theorem C116_other_key_refuted (magic : Bytes → Str) (data : Bytes) (k : TKey) (h : readKey magic data = .ok k) :
    ∃ content, ∀ base keyId exact, (keyserverGet magic base keyId exact content).2 = .ok k := by
  obtain ⟨text, _, h4, _⟩ := key_text data
  exact ⟨utf8Encode text, fun base keyId exact => by simp only [keyserverGet, readKeyAny, h4, except_bind_ok, h]⟩

example (F : HeaderFormat) (magic : Bytes → Str) : ∃ k content, ∀ base keyId exact, (keyserverGet magic base keyId exact content).2 = .ok k := by
  obtain ⟨k, h, _⟩ := C83_import_export_partial magic Nat.log2 (· < 4096) exGood (· = F) (exFile F) (exFile_ok magic F)
  exact ⟨k, C116_other_key_refuted magic _ k h⟩

/-- C116 fails: an answer with anything before the armored key, such as an empty line, raises. -/
theorem C116_answer_start_refuted (magic : Bytes → Str) (base keyId : Str) (exact : Bool) (content : Bytes) (h : content.take 5 ≠ [45, 45, 45, 45, 45]) :
    Raises (keyserverGet magic base keyId exact content).2 := by
  simp only [keyserverGet, readKeyAny]
  have hf := C88_flagged_octets_raise content h
  by_cases hb : ∀ x ∈ content, x.toNat ∈ [9, 10, 11, 12, 13, 32]
  · rw [hf.1 hb]; exact ⟨_, rfl⟩
  · rw [hf.2 (by
      by_contra hc
      exact hb fun x hx => by_contra fun hn => hc ⟨x, hx, hn⟩)]
    exact ⟨_, rfl⟩

example (magic : Bytes → Str) (rest : Bytes) := C116_answer_start_refuted magic [] [] true (10 :: rest) (by simp)

/-- C116 fails: submitting a secret key sends the secret key, in full and as a public key block. -/
theorem C116_secret_submitted_refuted (magic : Bytes → Str) (fl : Nat → Nat) (hl : LogOnCounts fl) (good : Nat → Prop) (hg : ∀ i, good i → LogRoom fl i ∧ (0 < i → fl i = Nat.log2 i))
    (F : HeaderFormat → Prop) (data : Bytes) (h : SecretKeyFile magic F good data) (base : Str) (noModify : Bool) :
    ∃ k text q a, readKey magic data = .ok k ∧ submitRequest fl base k noModify = .ok ⟨submitUrl base, some q⟩ ∧
      FormText [("keytext".toList, text), ("options".toList, (if noModify then "mr,nm" else "mr").toList)] q ∧ fromAscii text = .ok a ∧ a.data = data := by
  obtain ⟨k, h1, h2⟩ := C91_import_export_partial magic fl hl good hg F data h
  obtain ⟨text, h3, _, a, h4, h5⟩ := key_text data
  exact ⟨k, text, _, a, h1, by simp only [submitRequest, h2, h3, except_bind_ok]; rfl, urlencode_form _ _, h4, h5⟩

example (magic : Bytes → Str) (f : HeaderFormat) (base : Str) := C116_secret_submitted_refuted magic Nat.log2 (fun _ _ _ => rfl) (· < 4096) exGood (· = f) (exSecretFile f) (exSecretFile_ok magic f) base false

end Pgp.Props
