import Verif.Spec.Rpn

/-! # Specification: equations with groups -/

namespace Verif.Rpn

/-- A piece of an equation: a term outside all groups, a group preceded by its header, or a group followed by its header.
The header is a term of type G.  The members `b` are given as an equation of their own, in which the members of groups within
the group carry the names of those groups and the other members no name.  `v` is the value of the group. -/
inductive Item
  | term (t : Term)
  | lead (h : Term) (g : String) (b : List Term) (v : ℚ)
  | trail (g : String) (b : List Term) (h : Term) (v : ℚ)

/-- The members as they are in the file: those that are not in a group within the group carry the name of the group. -/
def tag (g : String) (b : List Term) : List Term :=
  b.map (fun t => match t.group with
    | none => { t with group := some g }
    | some _ => t)

/-- The terms of a piece as they are in the file. -/
def Item.terms : Item → List Term
  | .term t => [t]
  | .lead h g b _ => h :: tag g b
  | .trail g b h _ => tag g b ++ [h]

/-- The names of the group of a piece and of the groups within it. -/
def Item.groups : Item → List String
  | .term _ => []
  | .lead _ g b _ => g :: b.filterMap Term.group
  | .trail g b _ _ => g :: b.filterMap Term.group

/-- The piece with the group evaluated: the header has become an ordinary term (type A, a measurement) with the value of the
group and the members are gone. -/
def Item.collapse : Item → Term
  | .term t => t
  | .lead h _ _ v => { h with typ := .A, value := some v }
  | .trail _ _ h v => { h with typ := .A, value := some v }

/-- The members of a group: there is a first and a last member and these are not in groups within the group, and the first is
not the header of a group. -/
def Members (g : String) (b : List Term) : Prop :=
  (∃ t, b.head? = some t ∧ t.group = none ∧ t.typ ≠ .G) ∧ (∃ t, b.getLast? = some t ∧ t.group = none) ∧
    ∀ t ∈ b, t.group ≠ some g

/-- The members of a group whose first member is the header of a group within the group.  Such a group may also end with groups
within it: each member behind the last member `m` that is not in a group within the group follows a header or a member of its own
group. -/
def HeadedMembers (g : String) (b : List Term) : Prop :=
  (∃ t, b.head? = some t ∧ t.group = none ∧ t.typ = .G) ∧ (∃ t, b.getLast? = some t ∧ t.typ ≠ .G) ∧ (∀ t ∈ b, t.group ≠ some g) ∧
    ∃ front m tail, b = front ++ m :: tail ∧ m.group = none ∧ (∀ t ∈ tail, t.group ≠ none) ∧
      (m :: tail).IsChain (fun a b => a.typ = .G ∨ a.group = b.group)

/-- The piece has the form described and `v` is the value of the members evaluated as an equation of their own. -/
def Item.Valid (sqrt : ℚ → ℚ) : Item → Prop
  | .term t => t.group = none ∧ t.typ ≠ .G
  | .lead h g b v => h.typ = .G ∧ h.group = none ∧ (Members g b ∨ HeadedMembers g b) ∧ rpnCalc sqrt b = .ok v
  | .trail g b h v => h.typ = .G ∧ h.group = none ∧ Members g b ∧ rpnCalc sqrt b = .ok v

/-- No group name occurs in two pieces. -/
def Apart (items : List Item) : Prop := items.Pairwise (fun i j => ∀ g ∈ i.groups, g ∉ j.groups)

end Verif.Rpn
