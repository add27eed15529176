import Verif.Addons.Model

/-!
# What plain IPython does

In IPython without ipyflow the lists hold what was put there, and the code of each run goes through what they hold.
-/

namespace Verif.Addons.Spec

open Verif.Addons

/-- The state of a shell without ipyflow: what each list holds, the loaded extensions, and what the code of each run went through. -/
structure Plain where
  lists : Which → List Nat
  loaded : List Nat
  seen : List (List Nat × List Nat)

/-- One list replaced. -/
def Plain.put (p : Plain) (w : Which) (l : List Nat) : Plain := { p with lists := fun v => if v = w then l else p.lists v }

/-- Code in a shell without ipyflow: runs are just runs. -/
def plain : Code → Plain → Plain
  | .done, p => p
  | .fail, p => p
  | .add w n rest, p => plain rest (p.put w (p.lists w ++ [n]))
  | .remove w n rest, p => if n ∈ p.lists w then plain rest (p.put w ((p.lists w).erase n)) else p
  | .assign w ns rest, p => plain rest (p.put w ns)
  | .load e w ns rest, p => if e ∈ p.loaded then plain rest p else plain rest { p.put w (p.lists w ++ ns) with loaded := p.loaded ++ [e] }
  | .run _ body rest, p => plain rest (plain body { p with seen := p.seen ++ [(p.lists .post, p.lists .ast)] })

/-- A session in a shell without ipyflow. -/
def plainSession : List (Mode × Code) → Plain → Plain
  | [], p => p
  | (m, c) :: cs, p => plainSession cs (plain (.run m c .done) p)

/-- The transformers of the user in a list, in their order. -/
def users : List T → List Nat
  | [] => []
  | .user n :: l => n :: users l
  | .own _ :: l => users l

/-- A shell as it starts: both lists as configured by the user. -/
def start (post ast : List Nat) : St := ⟨post.map .user, ast.map .user, [], []⟩

/-- The same without ipyflow. -/
def plainStart (post ast : List Nat) : Plain := ⟨fun w => match w with | .post => post | .ast => ast, [], []⟩

/-- What one wants: in any session the user's transformers stay as they are without ipyflow, and the code of each run goes through the same ones. -/
def Claim : Prop := ∀ (cells : List (Mode × Code)) (post ast : List Nat),
  let s := session cells (start post ast)
  let p := plainSession cells (plainStart post ast)
  s.post = (p.lists .post).map .user ∧ s.ast = (p.lists .ast).map .user ∧
    s.log.map (fun x => (users x.1, users x.2)) = p.seen

/-- Whether ipyflow puts something of its own into a list during such a run. -/
def Mode.wraps : Mode → Which → Bool
  | .bare, _ => false
  | .text _, w => w == .post
  | .full _ _, _ => true

/-- The code changes no list which a run around it wraps: `wr` tells which are wrapped already. -/
def Outside : (Which → Bool) → Code → Prop
  | _, .done => True
  | _, .fail => True
  | wr, .add w _ rest => wr w = false ∧ Outside wr rest
  | wr, .remove w _ rest => wr w = false ∧ Outside wr rest
  | wr, .assign w _ rest => wr w = false ∧ Outside wr rest
  | wr, .load _ w _ rest => wr w = false ∧ Outside wr rest
  | wr, .run m body rest => Outside (fun w => wr w || Mode.wraps m w) body ∧ Outside wr rest

/-- The code only loads the extension, any number of times, and may run such code. -/
def Loads (e : Nat) : Code → Prop
  | .done => True
  | .load e' _ _ rest => e' = e ∧ Loads e rest
  | .run _ body rest => Loads e body ∧ Loads e rest
  | _ => False

end Verif.Addons.Spec
