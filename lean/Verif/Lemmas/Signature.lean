import Verif.Spec.Signature
import Verif.Lemmas.Utils
/- Lemmas about signature objects. -/
namespace Pgp
open Pgp.Spec

theorem setattr_type (f : Field) (v : f.Val) (p : Plain) : (f.setattr v p).type = p.type := by
  cases f <;> cases p <;> rfl

theorem write_type (f : Field) (v : f.Val) (x : Sub) : (f.write v x).type = x.type := by
  cases x with
  | plain c p => exact setattr_type f v p
  | embedded c s => rfl

theorem construct_spec (f : Field) (v : f.Val) (p : Plain) (h : f.construct v = .ok p) : p.type = f.subType ∧ f.getattr p = .ok v ∧
    ∀ t, p ≠ .other t := by
  cases f
  case flag x => cases x <;> cases h <;> exact ⟨rfl, rfl, fun t => nofun⟩
  case prefComp =>
    obtain ⟨_, _, h⟩ := except_bind_eq_ok.mp h
    cases h; exact ⟨rfl, rfl, fun t => nofun⟩
  case prefHash =>
    obtain ⟨_, _, h⟩ := except_bind_eq_ok.mp h
    cases h; exact ⟨rfl, rfl, fun t => nofun⟩
  case prefSym =>
    obtain ⟨_, _, h⟩ := except_bind_eq_ok.mp h
    cases h; exact ⟨rfl, rfl, fun t => nofun⟩
  all_goals cases h; exact ⟨rfl, rfl, fun t => nofun⟩

theorem keyFlags_get_set (k : KeyFlags) (b : Bool) (x : Flag) : (k.set b x).get x = b := by cases x <;> rfl

theorem keyFlags_get_set_ne (k : KeyFlags) (b : Bool) (x y : Flag) (h : x ≠ y) : (k.set b x).get y = k.get y := by
  cases x <;> cases y <;> first | rfl | exact absurd rfl h

theorem subType_known (f : Field) : f.subType ∈ knownTypes := by cases f <;> simp [Field.subType, knownTypes]

/-- Reading back what was written in a subpacket of the right class. -/
theorem getattr_setattr (f : Field) (v : f.Val) (p : Plain) (ht : p.type = f.subType) (ho : ∀ t, p ≠ .other t) :
    f.getattr (f.setattr v p) = .ok v := by
  cases p with
  | other t => exact absurd rfl (ho t)
  | keyFlags k =>
    cases f with
    | flag x => simp only [Field.setattr, Field.getattr, keyFlags_get_set]
    | _ => simp [Plain.type, Field.subType] at ht
  | _ => cases f <;> first | rfl | simp [Plain.type, Field.subType] at ht

/-- Reading another property after a write in the same subpacket. -/
theorem getattr_setattr_ne (f g : Field) (v : f.Val) (p : Plain) (hne : f ≠ g) (hs : Separate f g) :
    g.getattr (f.setattr v p) = g.getattr p := by
  by_cases hb : BothFlags f g
  · obtain ⟨⟨x, rfl⟩, y, rfl⟩ := hb
    cases p with
    | keyFlags k =>
      simp only [Field.setattr, Field.getattr]
      rw [keyFlags_get_set_ne k v x y (fun h => hne (by rw [h]))]
    | _ => rfl
  · cases f <;> cases g <;> first
      | exact absurd rfl hne
      | exact absurd ⟨rfl, rfl⟩ hs.1
      | exact absurd ⟨rfl, rfl⟩ hs.2
      | exact absurd ⟨⟨_, rfl⟩, _, rfl⟩ hb
      | (cases p <;> rfl)

theorem read_write (f : Field) (v : f.Val) (x : Sub) (ht : x.type = f.subType) (ho : ∀ c t, x ≠ .plain c (.other t)) :
    f.read (f.write v x) = .ok v := by
  cases x with
  | plain c p => exact getattr_setattr f v p ht (fun t h => ho c t (by rw [h]))
  | embedded c s => exact absurd ht (by cases f <;> simp [Sub.type, Field.subType])

theorem read_write_ne (f g : Field) (v : f.Val) (x : Sub) (hne : f ≠ g) (hs : Separate f g) : g.read (f.write v x) = g.read x := by
  cases x with
  | plain c p => exact getattr_setattr_ne f g v p hne hs
  | embedded c s => rfl

/-- The update applied to every subpacket. -/
def updSub (f : Field) (v : f.Val) (x : Sub) : Sub := if x.type = f.subType then f.write v x else x

theorem updSub_type (f : Field) (v : f.Val) (x : Sub) : (updSub f v x).type = x.type := by
  unfold updSub
  split
  · exact write_type f v x
  · rfl

theorem filter_map_upd (f : Field) (v : f.Val) (ty : Nat) (l : List Sub) :
    (l.map (updSub f v)).filter (fun x => x.type = ty) = (l.filter (fun x => x.type = ty)).map (updSub f v) := by
  induction l with
  | nil => rfl
  | cons x l ih =>
    simp only [List.map_cons, List.filter_cons, updSub_type, ih]
    split <;> rfl

theorem map_upd_other (f : Field) (v : f.Val) (ty : Nat) (hty : ty ≠ f.subType) (l : List Sub) (hl : ∀ x ∈ l, x.type = ty) :
    l.map (updSub f v) = l := by
  induction l with
  | nil => rfl
  | cons x l ih =>
    rw [List.map_cons, ih (fun y hy => hl y (List.mem_cons_of_mem _ hy))]
    have : updSub f v x = x := by
      unfold updSub
      rw [if_neg]
      rw [hl x List.mem_cons_self]
      exact hty
    rw [this]

theorem mem_subs {s : SigObj} {ty : Nat} {x : Sub} : x ∈ s.subs ty ↔ x ∈ s.hashed ++ s.unhashed ∧ x.type = ty := by
  rw [SigObj.subs, List.mem_filter]
  simp

/-- What an assignment does to the subpackets: changes those of its type, or adds one at the end of the hashed ones. -/
theorem set_cases (s s' : SigObj) (f : Field) (v : f.Val) (h : s.set f v = .ok s') :
    (s.subs f.subType = [] ∧ ∃ p, f.construct v = .ok p ∧ s' = { s with hashed := s.hashed ++ [.plain false p] }) ∨
    (s.subs f.subType ≠ [] ∧ s' = { s with hashed := s.hashed.map (updSub f v), unhashed := s.unhashed.map (updSub f v) }) := by
  unfold SigObj.set at h
  split at h
  · rename_i he
    obtain ⟨p, hp, h⟩ := except_bind_eq_ok.mp h
    cases h
    exact .inl ⟨he, p, hp, rfl⟩
  · rename_i he
    cases h
    exact .inr ⟨by rw [he]; simp, rfl⟩

theorem subs_set_other (s s' : SigObj) (f : Field) (v : f.Val) (h : s.set f v = .ok s') (ty : Nat) (hty : ty ≠ f.subType) :
    s'.subs ty = s.subs ty := by
  rcases set_cases s s' f v h with ⟨_, p, hp, rfl⟩ | ⟨_, rfl⟩
  · have := (construct_spec f v p hp).1
    simp only [SigObj.subs, List.filter_append, List.filter_cons, Sub.type, this, List.filter_nil]
    rw [if_neg (by simpa using Ne.symm hty)]
    simp
  · simp only [SigObj.subs]
    rw [← List.map_append, filter_map_upd, map_upd_other f v ty hty _ (fun x hx => by simpa using (List.mem_filter.mp hx).2)]

theorem subs_set_own (s s' : SigObj) (f : Field) (v : f.Val) (h : s.set f v = .ok s') :
    (s.subs f.subType = [] ∧ ∃ p, f.construct v = .ok p ∧ s'.subs f.subType = [.plain false p]) ∨
    (s.subs f.subType ≠ [] ∧ s'.subs f.subType = (s.subs f.subType).map (f.write v)) := by
  rcases set_cases s s' f v h with ⟨he, p, hp, rfl⟩ | ⟨he, rfl⟩
  · refine .inl ⟨he, p, hp, ?_⟩
    have ht := (construct_spec f v p hp).1
    have h1 : s.hashed.filter (fun x => x.type = f.subType) = [] ∧ s.unhashed.filter (fun x => x.type = f.subType) = [] := by
      simpa [SigObj.subs] using he
    have ht' : (Sub.plain false p).type = f.subType := ht
    simp only [SigObj.subs, List.filter_append, h1.1, h1.2, List.filter_cons, ht', List.filter_nil]
    simp
  · refine .inr ⟨he, ?_⟩
    simp only [SigObj.subs]
    rw [← List.map_append, filter_map_upd]
    apply List.map_congr_left
    intro x hx
    have : x.type = f.subType := by simpa using (List.mem_filter.mp hx).2
    simp [updSub, this]

theorem regular_subs {s : SigObj} (hr : Regular s) {ty : Nat} (hty : ty ∈ knownTypes) {x : Sub} (hx : x ∈ s.subs ty) (c : Bool) (t : Nat) :
    x ≠ .plain c (.other t) := by
  intro he
  obtain ⟨hm, ht⟩ := mem_subs.mp hx
  have : t = ty := by rw [he] at ht; exact ht
  rcases List.mem_append.mp hm with hm | hm
  · exact hr.1 x hm c t he (this ▸ hty)
  · exact hr.2 x hm c t he (this ▸ hty)

theorem updSub_regular (f : Field) (v : f.Val) (l : List Sub) (hl : RegularSubs l) : RegularSubs (l.map (updSub f v)) := by
  intro x hx c t he
  obtain ⟨y, hy, rfl⟩ := List.mem_map.mp hx
  cases y with
  | embedded c' s' =>
    unfold updSub Field.write at he
    split at he <;> cases he
  | plain c' p =>
    have hp : p = .other t := by
      unfold updSub Field.write at he
      split at he
      · injection he with _ he
        cases p <;> cases f <;> first | exact he | simp [Field.setattr] at he
      · injection he
    exact hl _ hy c' t (by rw [hp])

theorem set_regular (s s' : SigObj) (f : Field) (v : f.Val) (h : s.set f v = .ok s') (hr : Regular s) : Regular s' := by
  rcases set_cases s s' f v h with ⟨_, p, hp, rfl⟩ | ⟨_, rfl⟩
  · refine ⟨?_, hr.2⟩
    intro x hx c t he
    rcases List.mem_append.mp hx with hx | hx
    · exact hr.1 x hx c t he
    · have := List.mem_singleton.mp hx
      rw [this] at he
      injection he with _ he
      exact absurd he ((construct_spec f v p hp).2.2 t)
  · exact ⟨updSub_regular f v _ hr.1, updSub_regular f v _ hr.2⟩

end Pgp
