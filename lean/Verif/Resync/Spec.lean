import Verif.Resync.Model

/-!
# What it means to be up to date
-/

namespace Verif.Resync

/-- Each known symbol is listed as a name of its object, and of no other object. -/
def Listed (st : St) (known : Nat → Prop) : Prop :=
  ∀ s o, s ∈ st.names o ↔ known s ∧ (st.sym s).obj = o

/-- How symbols are kept: global ones are in no namespace, and the object last looked at is
the object of the symbol. -/
structure Wf (st : St) (known : Nat → Prop) : Prop where
  home : ∀ s, (st.sym s).isGlobal = true → (st.sym s).home = none
  cached : ∀ s, known s → (st.sym s).cached = some (st.sym s).obj

/-- The symbol of an element of a list is found under its position only. -/
def Placed (st : St) : Prop :=
  ∀ h k s, st.sub h k = some s → (st.sym s).home = some h ∧ (st.sym s).pos = k

/-- The symbol found for an element stands for what is at that place. -/
def Right (w : World) (st : St) (h k s : Nat) : Prop :=
  ∃ l, w.elems h = some l ∧ l[k]? = some (st.sym s).obj

end Verif.Resync
