import Verif.Assigned.Model

/-!
# What texts assign

`Writes` follows the Python reference: which variables of the notebook the text contains an assignment
to.  `Recognised` lists the forms that the analysis reacts to.
-/

namespace Verif.Assigned

/-- The expression assigns `x` (`x := …`). -/
def WritesE : Expr → Nat → Prop
  | .walrus y e, x => x = y ∨ WritesE e x
  | .lam d, x => WritesE d x
  | .both a b, x => WritesE a x ∨ WritesE b x
  | _, _ => False

/-- The target, or an expression in it, assigns `x`. -/
def WritesT : Target → Nat → Prop
  | .name y, x => x = y
  | .attr b _ _, x => WritesE b x
  | .sub b i, x => WritesE b x ∨ WritesE i x
  | .two t u, x => WritesT t x ∨ WritesT u x

/-- The import binds `x`. -/
def Binds : Alias → Nat → Prop
  | .plain y, x => x = y
  | .dotted a, x => x = a
  | .star xs, x => x ∈ xs

/-- The text contains an assignment to `x`, outside functions and classes. -/
def Writes : Stmt → Nat → Prop
  | .skip, _ => False
  | .seq a b, x => Writes a x ∨ Writes b x
  | .expr e, x => WritesE e x
  | .assign ts e, x => WritesE e x ∨ ∃ t ∈ ts, WritesT t x
  | .aug t e, x => WritesT t x ∨ WritesE e x
  | .ann t e, x => WritesE e x ∨ WritesT t x
  | .annOnly (.name _), _ => False
  | .annOnly t, x => WritesT t x
  | .imp ns, x => ∃ n ∈ ns, Binds n x
  | .ite e a b, x => WritesE e x ∨ Writes a x ∨ Writes b x
  | .whil e a b, x => WritesE e x ∨ Writes a x ∨ Writes b x
  | .forr t e a b, x => WritesE e x ∨ WritesT t x ∨ Writes a x ∨ Writes b x
  | .withs e t a, x => WritesE e x ∨ (∃ u, t = some u ∧ WritesT u x) ∨ Writes a x
  | .tryy a h o f, x => Writes a x ∨ Writes h x ∨ Writes o x ∨ Writes f x
  | .defn f e, x => x = f ∨ WritesE e x
  | .cls y e, x => x = y ∨ WritesE e x
  | .del _, _ => False

/-- `x` stands alone somewhere in the expression: not as the start of a chain. -/
def Alone : Expr → Nat → Prop
  | .name y, x => x = y
  | .walrus _ e, x => Alone e x
  | .both a b, x => Alone a x ∨ Alone b x
  | _, _ => False

/-- `x` occurs in the expression. -/
def Occurs : Expr → Nat → Prop
  | .nil, _ => False
  | .name y, x => x = y
  | .chain y, x => x = y
  | .walrus y e, x => x = y ∨ Occurs e x
  | .lam d, x => Occurs d x
  | .both a b, x => Occurs a x ∨ Occurs b x

/-- An expression that the analysis takes to assign `x`: `x := e` without `x` alone in `e`, and lambdas
with `x` in their defaults. -/
def RecE : Expr → Nat → Prop
  | .walrus y e, x => (x = y ∧ ¬ Alone e x) ∨ RecE e x
  | .lam d, x => Occurs d x
  | .both a b, x => RecE a x ∨ RecE b x
  | _, _ => False

/-- The same for an expression before a dot or a bracket, where nothing stands alone. -/
def RecB : Expr → Nat → Prop
  | .walrus y e, x => x = y ∨ RecB e x
  | .lam d, x => Occurs d x
  | .both a b, x => RecB a x ∨ RecB b x
  | _, _ => False

/-- A target that the analysis takes to assign `x`. -/
def RecT : Target → Nat → Prop
  | .name y, x => x = y
  | .attr _ a lost, x => lost = true ∧ x = a
  | .sub _ i, x => RecE i x
  | .two t u, x => RecT t x ∨ RecT u x

/-- The base of a target that is an attribute or a subscript. -/
def InBase (p : Expr → Nat → Prop) : Target → Nat → Prop
  | .attr b _ _, x => p b x
  | .sub b _, x => p b x
  | _, _ => False

/-- An assignment that the analysis takes to assign `x`. -/
def RecA (ts : List Target) (e : Expr) (x : Nat) : Prop :=
  RecE e x ∨ (∃ t ∈ ts, InBase RecE t x) ∨
    ((∃ t ∈ ts, RecT t x) ∧ ¬ Alone e x ∧ ∀ t ∈ ts, ¬ InBase Alone t x)

/-- A target of an augmented assignment that is taken to assign `x`. -/
def RecAug : Target → Nat → Prop
  | .name y, x => x = y
  | .attr b _ _, x => RecB b x
  | .sub b i, x => RecB b x ∨ Alone i x ∨ RecE i x
  | .two _ _, _ => False

/-- A target of a loop or a `with` statement that is taken to assign `x`. -/
def RecFor : Target → Nat → Prop
  | .name y, x => x = y
  | .attr b _ _, x => Occurs b x
  | .sub b i, x => Occurs b x ∨ Occurs i x
  | .two t u, x => RecFor t x ∨ RecFor u x

/-- A text that the analysis takes to assign `x`. -/
def Recognised : Stmt → Nat → Prop
  | .skip, _ => False
  | .seq a b, x => Recognised a x ∨ Recognised b x
  | .expr e, x => RecE e x
  | .assign ts e, x => RecA ts e x
  | .aug t e, x => RecAug t x ∨ RecE e x
  | .ann t e, x => RecA [t] e x
  | .annOnly t, x => RecA [t] .nil x
  | .imp ns, x => Alias.plain x ∈ ns
  | .ite e a b, x => RecE e x ∨ Recognised a x ∨ Recognised b x
  | .whil e a b, x => RecE e x ∨ Recognised a x ∨ Recognised b x
  | .forr t e a b, x => RecE e x ∨ RecFor t x ∨ Recognised a x ∨ Recognised b x
  | .withs e t a, x => RecE e x ∨ (∃ u, t = some u ∧ RecFor u x) ∨ Recognised a x
  | .tryy a h o f, x => Recognised a x ∨ Recognised h x ∨ Recognised o x ∨ Recognised f x
  | .defn f e, x => x = f ∨ RecE e x
  | .cls y e, x => x = y ∨ RecE e x
  | .del _, _ => False

/-- In the expression, `x := e` does not have `x` alone in `e`, and defaults of lambdas do not mention
`x`. -/
def OrdE : Expr → Nat → Prop
  | .walrus y e, x => (x = y → ¬ Alone e x) ∧ OrdE e x
  | .lam d, x => ¬ Occurs d x
  | .both a b, x => OrdE a x ∧ OrdE b x
  | _, _ => True

/-- The target is made of variables, or of attributes and elements of chains, and does not mention `x`
in an index or before a dot or a bracket. -/
def OrdT : Target → Nat → Prop
  | .name _, _ => True
  | .attr b a lost, x => ¬ Occurs b x ∧ (lost = true → x ≠ a)
  | .sub b i, x => ¬ Occurs b x ∧ ¬ Occurs i x
  | .two t u, x => OrdT t x ∧ OrdT u x

/-- As far as `x` is concerned, the text has none of the forms that the analysis gets wrong: `x` does not
stand alone in a value that is assigned to it, nor in the indices and bases of targets, is not only
annotated, and is not bound by `import x.y` or `from m import *`. -/
def Ordinary : Stmt → Nat → Prop
  | .skip, _ => True
  | .seq a b, x => Ordinary a x ∧ Ordinary b x
  | .expr e, x => OrdE e x
  | .assign ts e, x => OrdE e x ∧ (∀ t ∈ ts, OrdT t x) ∧ ((∃ t ∈ ts, WritesT t x) → ¬ Alone e x)
  | .aug t e, x => OrdE e x ∧ OrdT t x ∧ ∀ u v, t ≠ .two u v
  | .ann t e, x => OrdE e x ∧ OrdT t x ∧ (WritesT t x → ¬ Alone e x)
  | .annOnly t, x => OrdT t x ∧ t ≠ .name x ∧ ∀ u v, t ≠ .two u v
  | .imp ns, x => Alias.dotted x ∉ ns ∧ ∀ xs, Alias.star xs ∈ ns → x ∉ xs
  | .ite e a b, x => OrdE e x ∧ Ordinary a x ∧ Ordinary b x
  | .whil e a b, x => OrdE e x ∧ Ordinary a x ∧ Ordinary b x
  | .forr t e a b, x => OrdE e x ∧ OrdT t x ∧ Ordinary a x ∧ Ordinary b x
  | .withs e t a, x => OrdE e x ∧ (∀ u, t = some u → OrdT u x) ∧ Ordinary a x
  | .tryy a h o f, x => Ordinary a x ∧ Ordinary h x ∧ Ordinary o x ∧ Ordinary f x
  | .defn _ e, x => OrdE e x
  | .cls _ e, x => OrdE e x
  | .del _, _ => True

/-- The full claim: the variables found to be assigned are those the text contains an assignment to. -/
def FoundClaim : Prop := ∀ (keep : Bool) (s : Stmt) (x : Nat), x ∈ found keep s ↔ Writes s x

/-- The assignment is made by a statement of the cell itself, and by an ordinary one: `=` without `x`
alone in the value, `def`, `class`, or an import without dotted names and stars. -/
def Plainly (w : Write) : Prop :=
  w.outer = true ∧ match w.stmt with
    | .assign ts e => RecA ts e w.var
    | .defn f e => w.var = f ∨ RecE e w.var
    | .cls y e => w.var = y ∨ RecE e w.var
    | .imp ns => ∀ n ∈ ns, ∃ y, n = .plain y
    | _ => False

/-- The run assigns `x`. -/
def Makes (run : List Write) (x : Nat) : Prop := ∃ w ∈ run, w.var = x

/-- The full claim: a link because of `x` from a cell whose run has assigned it is shown, after an edit,
exactly if the new text assigns `x`. -/
def LinkClaim : Prop :=
  ∀ (keep : Bool) (run : List Write) (text : Stmt) (x : Nat), Makes run x →
    (∀ w ∈ run, Writes w.stmt w.var) → (shown keep run text x = true ↔ Writes text x)

end Verif.Assigned
