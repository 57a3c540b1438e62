import Verif.Model.SigLists
import Verif.Spec.SigLists
import Verif.Lemmas.Signature
/-
Lemmas about the list attributes of signatures.
-/
namespace Pgp
open Spec

theorem mapM_ok_iff {α β : Type} {f : α → Py β} : ∀ {l : List α} {r : List β}, l.mapM f = .ok r ↔ l.map f = r.map .ok := by
  intro l
  induction l with
  | nil => intro r; cases r <;> simp [List.mapM_nil, except_pure]
  | cons x l ih =>
    intro r
    rw [List.mapM_cons]
    constructor
    · intro h
      obtain ⟨a, ha, h⟩ := except_bind_eq_ok.mp h
      obtain ⟨b, hb, h⟩ := except_bind_eq_ok.mp h
      cases h
      rw [List.map_cons, List.map_cons, ha, ih.mp hb]
    · intro h
      cases r with
      | nil => simp at h
      | cons y r =>
        rw [List.map_cons, List.map_cons, List.cons.injEq] at h
        rw [h.1, except_bind_ok, ih.mpr h.2]
        rfl

theorem mapM_ok_append {α β : Type} {f : α → Py β} {l l' : List α} {r r' : List β} (h : l.mapM f = .ok r) (h' : l'.mapM f = .ok r') :
    (l ++ l').mapM f = .ok (r ++ r') := by
  rw [mapM_ok_iff] at *
  rw [List.map_append, List.map_append, h, h']

theorem mapM_ok_perm {α β : Type} {f : α → Py β} {l l' : List α} (hp : l.Perm l') {r : List β} (h : l.mapM f = .ok r) :
    ∃ r', l'.mapM f = .ok r' ∧ r.Perm r' := by
  induction hp generalizing r with
  | nil => exact ⟨r, h, .refl _⟩
  | cons x _ ih =>
    rw [List.mapM_cons] at h
    obtain ⟨a, ha, h⟩ := except_bind_eq_ok.mp h
    obtain ⟨b, hb, h⟩ := except_bind_eq_ok.mp h
    cases h
    obtain ⟨r', h1, h2⟩ := ih hb
    exact ⟨a :: r', by rw [List.mapM_cons, ha, except_bind_ok, h1]; rfl, h2.cons a⟩
  | swap x y l =>
    simp only [List.mapM_cons] at h
    obtain ⟨a, ha, h⟩ := except_bind_eq_ok.mp h
    obtain ⟨b, hb, h⟩ := except_bind_eq_ok.mp h
    cases h
    obtain ⟨c, hc, hb⟩ := except_bind_eq_ok.mp hb
    obtain ⟨d, hd, hb⟩ := except_bind_eq_ok.mp hb
    cases hb
    exact ⟨c :: a :: d, by simp only [List.mapM_cons, ha, hc, hd, except_bind_ok]; rfl, .swap _ _ _⟩
  | trans _ _ ih1 ih2 =>
    obtain ⟨r1, h1, p1⟩ := ih1 h
    obtain ⟨r2, h2, p2⟩ := ih2 h1
    exact ⟨r2, h2, p1.trans p2⟩

theorem mapM_ok_mem {α β : Type} {f : α → Py β} {l : List α} {r : List β} (h : l.mapM f = .ok r) :
    (∀ x ∈ l, ∃ y ∈ r, f x = .ok y) ∧ (∀ y ∈ r, ∃ x ∈ l, f x = .ok y) := by
  rw [mapM_ok_iff] at h
  constructor
  · intro x hx
    have : f x ∈ r.map Except.ok := by rw [← h]; exact List.mem_map_of_mem hx
    obtain ⟨y, hy, e⟩ := List.mem_map.mp this
    exact ⟨y, hy, e.symm⟩
  · intro y hy
    have : (Except.ok y : Py β) ∈ l.map f := by rw [h]; exact List.mem_map_of_mem hy
    obtain ⟨x, hx, e⟩ := List.mem_map.mp this
    exact ⟨x, hx, e⟩

theorem mapM_ok_of {α β : Type} {f : α → Py β} {l : List α} (h : ∀ x ∈ l, ∃ y, f x = .ok y) : ∃ r, l.mapM f = .ok r := by
  induction l with
  | nil => exact ⟨[], rfl⟩
  | cons x l ih =>
    obtain ⟨y, hy⟩ := h x List.mem_cons_self
    obtain ⟨r, hr⟩ := ih (fun z hz => h z (List.mem_cons_of_mem _ hz))
    exact ⟨y :: r, by rw [List.mapM_cons, hy, except_bind_ok, hr]; rfl⟩

/-- With a non-empty new list the loop adds what was not there. -/
theorem list_fold_add {α : Type} (same : α → α → Bool) (toSub : α → Sub) (remove : SigObj → α → SigObj) (existing given : List α) (hne : given ≠ [])
    (l : List α) (s : SigObj) :
    l.foldl (listStep same (fun s k => s.addSub (toSub k)) remove existing given) s =
      { s with hashed := s.hashed ++ (l.filter (fun k => !existing.any (same k))).map toSub } := by
  have hg : given.isEmpty = false := by cases given with
    | nil => exact absurd rfl hne
    | cons => rfl
  induction l generalizing s with
  | nil => simp
  | cons k l ih =>
    rw [List.foldl_cons, ih]
    cases hk : existing.any (same k) with
    | true => simp only [listStep, hk, hg, Bool.not_false, Bool.and_self, if_true, List.filter_cons, Bool.not_true, Bool.false_eq_true, if_false]
    | false => simp [listStep, hk, SigObj.addSub, List.filter_cons]

/-- The subpackets of a type after adding some of that type. -/
theorem subs_added (s : SigObj) (ty : Nat) (new : List Sub) (hn : ∀ x ∈ new, x.type = ty) :
    (s.subs ty ++ new).Perm (({ s with hashed := s.hashed ++ new } : SigObj).subs ty) := by
  have hnew : new.filter (fun x => x.type = ty) = new := List.filter_eq_self.mpr (fun x hx => by simpa using hn x hx)
  simp only [SigObj.subs, List.filter_append, hnew, List.append_assoc]
  exact (List.perm_append_comm).append_left _

theorem subs_added_other (s : SigObj) (ty ty' : Nat) (new : List Sub) (hn : ∀ x ∈ new, x.type = ty) (hty : ty' ≠ ty) :
    ({ s with hashed := s.hashed ++ new } : SigObj).subs ty' = s.subs ty' := by
  have hnew : new.filter (fun x => x.type = ty') = [] := List.filter_eq_nil_iff.mpr (fun x hx => by simpa [hn x hx] using fun h => hty h.symm)
  simp only [SigObj.subs, List.filter_append, hnew, List.append_nil]

/-- Assigning a non-empty list: the general form. -/
theorem list_added {α κ : Type} (key : α → κ) (same : α → α → Bool) (read : Sub → Py α) (toSub : α → Sub) (ty : Nat)
    (hty : ∀ k, (toSub k).type = ty) (remove : SigObj → α → SigObj) (order : List α → List α) (existing given : List α) (hne : given ≠ [])
    (hsame : ∀ a ∈ given ++ existing, ∀ b ∈ existing, same a b = true ↔ key a = key b)
    (ho : Iterates key (given ++ existing) (order (given ++ existing))) (hread : ∀ k ∈ given, read (toSub k) = .ok k) (s : SigObj)
    (hex : (s.subs ty).mapM read = .ok existing) :
    ∃ s' added after, (order (given ++ existing)).foldl (listStep same (fun s k => s.addSub (toSub k)) remove existing given) s = s' ∧
      (s'.subs ty).mapM read = .ok after ∧ after.Perm (existing ++ added) ∧ (∀ k ∈ added, k ∈ given ∧ ∀ e ∈ existing, key k ≠ key e) ∧
      added.Pairwise (fun x y => key x ≠ key y) ∧ (∀ k ∈ given, ∃ a ∈ after, key a = key k) ∧ (∀ ty', ty' ≠ ty → s'.subs ty' = s.subs ty') := by
  obtain ⟨o1, o2, o3⟩ := ho
  let added := (order (given ++ existing)).filter (fun k => !existing.any (same k))
  have hadd : ∀ k ∈ added, k ∈ given ∧ ∀ e ∈ existing, key k ≠ key e := by
    intro k hk
    obtain ⟨h1, h2⟩ := List.mem_filter.mp hk
    have h3 : ∀ e ∈ existing, key k ≠ key e := by
      intro e he hke
      have : existing.any (same k) = true := List.any_eq_true.mpr ⟨e, he, (hsame k (o1 k h1) e he).mpr hke⟩
      rw [this] at h2; cases h2
    rcases List.mem_append.mp (o1 k h1) with h | h
    · exact ⟨h, h3⟩
    · exact absurd rfl (h3 k h)
  have hnew : ∀ x ∈ added.map toSub, x.type = ty := by
    intro x hx
    obtain ⟨k, _, rfl⟩ := List.mem_map.mp hx
    exact hty k
  have hradd : (added.map toSub).mapM read = .ok added := by
    rw [mapM_ok_iff, List.map_map]
    apply List.map_congr_left
    intro k hk
    exact hread k (hadd k hk).1
  obtain ⟨after, h1, h2⟩ := mapM_ok_perm (subs_added s ty _ hnew) (mapM_ok_append hex hradd)
  refine ⟨_, added, after, list_fold_add same toSub remove existing given hne _ s, h1, h2.symm, hadd, o3.filter _, ?_, fun ty' h => subs_added_other s ty ty' _ hnew h⟩
  intro k hk
  obtain ⟨y, hy, e⟩ := o2 k (List.mem_append_left _ hk)
  by_cases hex' : ∃ z ∈ existing, key y = key z
  · obtain ⟨z, hz, e'⟩ := hex'
    exact ⟨z, h2.mem_iff.mp (List.mem_append_left _ hz), by rw [← e', e]⟩
  · refine ⟨y, h2.mem_iff.mp (List.mem_append_right _ (List.mem_filter.mpr ⟨hy, ?_⟩)), e⟩
    rw [Bool.not_eq_true', List.any_eq_false]
    intro z hz h
    exact hex' ⟨z, hz, (hsame y (o1 y hy) z hz).mp h⟩

/-! ### Removing -/

/-- A subpacket is removed only if it is of the class given. -/
theorem same_type {fl : FloorLog2} {x sp : Sub} (h : Sub.same fl x sp = true) (hs : sp.cls = sp.type) (h0 : sp.type ≠ 0) : x.type = sp.type := by
  have hc : x.cls = sp.cls := by
    simp only [Sub.same, Bool.and_eq_true, decide_eq_true_eq] at h
    exact h.1
  cases x with
  | embedded c s => rw [← hs, ← hc]; rfl
  | plain c p =>
    cases p with
    | other t => exfalso; rw [hs] at hc; exact h0 hc.symm
    | _ => rw [← hs, ← hc]; rfl

theorem mem_removeSub (fl : FloorLog2) (s : SigObj) (sp x : Sub) :
    (x ∈ (s.removeSub fl sp).hashed ↔ x ∈ s.hashed ∧ Sub.same fl x sp = false) ∧
    (x ∈ (s.removeSub fl sp).unhashed ↔ x ∈ s.unhashed ∧ Sub.same fl x sp = false) := by
  constructor <;> simp only [SigObj.removeSub, List.mem_filter, Bool.not_eq_true']

/-- A step of removing keeps what it does not remove, for other types in full. -/
theorem subs_removeSub_other (fl : FloorLog2) (s : SigObj) (sp : Sub) (hs : sp.cls = sp.type) (h0 : sp.type ≠ 0) (ty : Nat) (hty : ty ≠ sp.type) :
    (s.removeSub fl sp).subs ty = s.subs ty := by
  have key : ∀ l : List Sub, (l.filter (fun x => !Sub.same fl x sp)).filter (fun x => x.type = ty) = l.filter (fun x => x.type = ty) := by
    intro l
    rw [List.filter_filter]
    apply List.filter_congr
    intro x _
    cases h : Sub.same fl x sp with
    | false => simp
    | true => simpa [same_type h hs h0] using fun e => hty (Eq.symm e)
  simp only [SigObj.subs, SigObj.removeSub, List.filter_append, key]

/-- Removing a list of things one after the other: what is left and what is untouched. -/
theorem fold_removed {α : Type} (step : SigObj → α → SigObj) (ty : Nat) (gone : α → Sub → Prop)
    (h1 : ∀ s k x, x ∈ (step s k).subs ty → x ∈ s.subs ty ∧ ¬gone k x) (h2 : ∀ s k ty', ty' ≠ ty → (step s k).subs ty' = s.subs ty') (l : List α) (s : SigObj) :
    (∀ x ∈ (l.foldl step s).subs ty, x ∈ s.subs ty ∧ ∀ k ∈ l, ¬gone k x) ∧ ∀ ty', ty' ≠ ty → (l.foldl step s).subs ty' = s.subs ty' := by
  induction l generalizing s with
  | nil => exact ⟨fun x hx => ⟨hx, fun k hk => by cases hk⟩, fun _ _ => rfl⟩
  | cons k l ih =>
    obtain ⟨i1, i2⟩ := ih (step s k)
    refine ⟨fun x hx => ?_, fun ty' h => (i2 ty' h).trans (h2 s k ty' h)⟩
    obtain ⟨j1, j2⟩ := i1 x hx
    obtain ⟨j3, j4⟩ := h1 s k x j1
    refine ⟨j3, fun k' hk' => ?_⟩
    rcases List.mem_cons.mp hk' with rfl | hk'
    · exact j4
    · exact j2 k' hk'

/-- Assigning an empty list: the general form. `gone k x`: removing `k` removes `x`. -/
theorem list_cleared {α κ : Type} (key : α → κ) (same : α → α → Bool) (read : Sub → Py α) (ty : Nat)
    (add remove : SigObj → α → SigObj) (gone : α → Sub → Prop)
    (h1 : ∀ s k x, x ∈ (remove s k).subs ty → x ∈ s.subs ty ∧ ¬gone k x) (h2 : ∀ s k ty', ty' ≠ ty → (remove s k).subs ty' = s.subs ty')
    (order : List α → List α) (existing : List α) (hsame : ∀ a ∈ existing, same a a = true) (ho : Iterates key ([] ++ existing) (order ([] ++ existing))) (s : SigObj)
    (hex : (s.subs ty).mapM read = .ok existing) (hgone : ∀ x ∈ s.subs ty, ∀ k, read x = .ok k → ∀ y ∈ existing, key y = key k → gone y x) :
    ((order ([] ++ existing)).foldl (listStep same add remove existing []) s).subs ty = [] ∧
      ∀ ty', ty' ≠ ty → ((order ([] ++ existing)).foldl (listStep same add remove existing []) s).subs ty' = s.subs ty' := by
  obtain ⟨o1, o2, o3⟩ := ho
  have hstep : ∀ (l : List α) (z : SigObj), (∀ k ∈ l, k ∈ existing) → l.foldl (listStep same add remove existing []) z = l.foldl remove z := by
    intro l
    induction l with
    | nil => intro z _; rfl
    | cons k l ih =>
      intro z hl
      have hk : existing.any (same k) = true := List.any_eq_true.mpr ⟨k, hl k List.mem_cons_self, hsame k (hl k List.mem_cons_self)⟩
      rw [List.foldl_cons, List.foldl_cons, ih _ (fun j hj => hl j (List.mem_cons_of_mem _ hj))]
      simp [listStep, hk]
  have hmem : ∀ k ∈ order ([] ++ existing), k ∈ existing := fun k hk => by simpa using o1 k hk
  rw [hstep _ _ hmem]
  obtain ⟨f1, f2⟩ := fold_removed remove ty gone h1 h2 (order ([] ++ existing)) s
  refine ⟨?_, f2⟩
  rw [List.eq_nil_iff_forall_not_mem]
  intro x hx
  obtain ⟨g1, g2⟩ := f1 x hx
  obtain ⟨k, hk, hr⟩ := (mapM_ok_mem hex).1 x g1
  obtain ⟨y, hy, e⟩ := o2 k (by simpa using hk)
  exact g2 y hy (hgone x g1 k hr y (hmem y hy) e)

end Pgp
