import Verif.Spec.Die
/-
The children of an entry of a tree.
-/
namespace Pstack.Spec

/-- In these entries, or below, there is `a`, and its children are `f` (none, if it has no list of children). -/
inductive Forest.KidsOf {α : Type} : Forest α → α → Forest α → Prop
  | leaf {a r} : KidsOf (.leaf a r) a .done
  | node {a k r} : KidsOf (.node a k r) a k
  | under {a b k r f} : KidsOf k a f → KidsOf (.node b k r) a f
  | afterLeaf {a b r f} : KidsOf r a f → KidsOf (.leaf b r) a f
  | afterNode {a b k r f} : KidsOf r a f → KidsOf (.node b k r) a f

/-- The same for the entries of a tree. -/
inductive DieTree.KidsOf {α : Type} : DieTree α → α → Forest α → Prop
  | alone {a} : KidsOf ⟨a, none⟩ a .done
  | root {a k} : KidsOf ⟨a, some k⟩ a k
  | under {a b k f} : k.KidsOf a f → KidsOf ⟨b, some k⟩ a f

/-- The entries of a list, and those below. -/
def Forest.all {α : Type} (f : Forest α) : List α := f.firsts.map (·.1)

end Pstack.Spec
