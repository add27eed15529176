import Verif.Bind.Model

/-!
# What a statement binds, deletes and reads

The language's rules, stated without the functions of the model. -/

namespace Verif.Bind

variable {X N : Type}

/-- `y := v` occurs in the expression. -/
inductive Occurs : E X N → N → X → E X N → Prop
  | here {n x v} : Occurs (.named n x v) n x v
  | inside {n x v m y w} : Occurs v m y w → Occurs (.named n x v) m y w
  | left {a b n x v} : Occurs a n x v → Occurs (.pair a b) n x v
  | right {a b n x v} : Occurs b n x v → Occurs (.pair a b) n x v
  | node {e n x v} : Occurs e n x v → Occurs (.node e) n x v
  | defaults {d b n x v} : Occurs d n x v → Occurs (.lam d b) n x v
  | body {d b n x v} : Occurs b n x v → Occurs (.lam d b) n x v

/-- `y := v` occurs in the expression, not in the body of a lambda: evaluating the expression may evaluate it. -/
inductive Within : E X N → N → X → E X N → Prop
  | here {n x v} : Within (.named n x v) n x v
  | inside {n x v m y w} : Within v m y w → Within (.named n x v) m y w
  | left {a b n x v} : Within a n x v → Within (.pair a b) n x v
  | right {a b n x v} : Within b n x v → Within (.pair a b) n x v
  | node {e n x v} : Within e n x v → Within (.node e) n x v
  | defaults {d b n x v} : Within d n x v → Within (.lam d b) n x v

/-- Evaluating the expression may read the variable. The value of `x := v` counts as the value of `x`. -/
inductive Reads : E X N → X → Prop
  | var {x} : Reads (.var x) x
  | target {n x v} : Reads (.named n x v) x
  | value {n x v y} : Reads v y → Reads (.named n x v) y
  | left {a b x} : Reads a x → Reads (.pair a b) x
  | right {a b x} : Reads b x → Reads (.pair a b) x
  | node {e x} : Reads e x → Reads (.node e) x
  | defaults {d b x} : Reads d x → Reads (.lam d b) x

/-- There is a lambda with defaults that read something. -/
inductive Lambdas : E X N → Prop
  | here {d b x} : Reads d x → Lambdas (.lam d b)
  | value {n x v} : Lambdas v → Lambdas (.named n x v)
  | left {a b} : Lambdas a → Lambdas (.pair a b)
  | right {a b} : Lambdas b → Lambdas (.pair a b)
  | node {e} : Lambdas e → Lambdas (.node e)

/-- The variables, attributes and elements that a target consists of. -/
inductive Part : T X N → Leaf X N → Prop
  | name {x} : Part (.name x) (.name x)
  | ref {n e} : Part (.ref n e) (.ref n)
  | left {a b l} : Part a l → Part (.pair a b) l
  | right {a b l} : Part b l → Part (.pair a b) l
  | tuple {ts l} : Part ts l → Part (.tuple ts) l
  | star {t l} : Part t l → Part (.star t) l

/-- The expressions that a target contains: objects and indices. -/
def inner : T X N → E X N
  | .name _ => .nil
  | .ref _ e => e
  | .nil => .nil
  | .pair a b => .pair (inner a) (inner b)
  | .tuple ts => inner ts
  | .star t => inner t

/-- The context expressions of a `with`. -/
def contexts : List (E X N × Option (T X N)) → E X N
  | [] => .nil
  | (e, _) :: l => .pair e (contexts l)

/-- The expressions in the targets of a `with`. -/
def innerI : List (E X N × Option (T X N)) → E X N
  | [] => .nil
  | (_, none) :: l => innerI l
  | (_, some t) :: l => .pair (inner t) (innerI l)

/-- The types named by the handlers of a `try`, or the expressions of patterns and the guards of the cases of a `match`. -/
def heads : S X N → E X N
  | .seq a b => .pair (heads a) (heads b)
  | .handler e _ _ => e
  | .case p _ g _ => .pair p g
  | _ => .nil

/-- The expressions that a statement itself evaluates, not counting those of targets and of the statements in its body. -/
def rhs : S X N → E X N
  | .assign _ v => v
  | .annAssign _ ann (some v) => .pair ann v
  | .annAssign _ ann none => ann
  | .augAssign _ v => v
  | .loop _ i _ _ => i
  | .asyncLoop _ i _ _ => i
  | .cond c _ _ => c
  | .while c _ _ => c
  | .with items _ => contexts items
  | .asyncWith items _ => contexts items
  | .funDef _ d ann decs _ => .pair d (.pair ann decs)
  | .classDef _ bases kws decs _ => .pair bases (.pair kws decs)
  | .try _ hs _ _ => heads hs
  | .handler e _ _ => e
  | .match e cs => .pair e (heads cs)
  | .case p _ g _ => .pair p g
  | .expr e => e
  | _ => .nil

/-- The expressions that the targets of a statement contain. -/
def lhs : S X N → E X N
  | .assign ts _ => inner ts
  | .annAssign t _ _ => inner t
  | .augAssign t _ => inner t
  | .loop t _ _ _ => inner t
  | .asyncLoop t _ _ _ => inner t
  | .with items _ => innerI items
  | .asyncWith items _ => innerI items
  | .del ts => inner ts
  | _ => .nil

/-- A name bound by an import. -/
inductive Imports : Alias X → X → Prop
  | plain {x} : Imports (.plain x) x
  | dotted {x} : Imports (.dotted x) x
  | named {x} : Imports (.named x) x
  | star {xs x} : x ∈ xs → Imports (.star xs) x

/-- A name bound by a pattern of the cases of a `match`. -/
inductive Captures : S X N → X → Prop
  | here {p xs g b x} : x ∈ xs → Captures (.case p xs g b) x
  | left {a b x} : Captures a x → Captures (.seq a b) x
  | right {a b x} : Captures b x → Captures (.seq a b) x

/-- What a statement binds or deletes by its own form. -/
inductive Direct : S X N → Ev X N → Prop
  | assign {ts v l} : Part ts l → Direct (.assign ts v) (.bind l (.expr v))
  | ann {t ann v l} : Part t l → Direct (.annAssign t ann (some v)) (.bind l (.expr v))
  | aug {t v l} : Part t l → Direct (.augAssign t v) (.bind l (.expr v))
  | loop {t i b o l} : Part t l → Direct (.loop t i b o) (.bind l (.expr i))
  | asyncLoop {t i b o l} : Part t l → Direct (.asyncLoop t i b o) (.bind l (.expr i))
  | with {items b e t l} : (e, some t) ∈ items → Part t l → Direct (.with items b) (.bind l (.expr e))
  | asyncWith {items b e t l} : (e, some t) ∈ items → Part t l → Direct (.asyncWith items b) (.bind l (.expr e))
  | fn {x d ann decs b} : Direct (.funDef x d ann decs b) (.bind (.name x) .self)
  | cls {x bases kws decs b} : Direct (.classDef x bases kws decs b) (.bind (.name x) .self)
  | imp {as a x} : a ∈ as → Imports a x → Direct (.imp as) (.bind (.name x) .module)
  | capture {e cs x} : Captures cs x → Direct (.match e cs) (.bind (.name x) (.expr e))
  | del {ts l} : Part ts l → Direct (.del ts) (.del l)

/-- What a statement binds or deletes; `ran` are the assignment expressions that were evaluated. -/
inductive Does (ran : N → Prop) (s : S X N) : Ev X N → Prop
  | direct {ev} : Direct s ev → Does ran s ev
  | rhs {n x v} : Within (rhs s) n x v → ran n → Does ran s (.bind (.name x) (.expr v))
  | lhs {n x v} : Within (lhs s) n x v → ran n → Does ran s (.bind (.name x) (.expr v))

/-- The statements directly in a statement. -/
inductive Child : S X N → S X N → Prop
  | seqL {a b} : Child a (.seq a b)
  | seqR {a b} : Child b (.seq a b)
  | loop {t i b o} : Child b (.loop t i b o)
  | loopElse {t i b o} : Child o (.loop t i b o)
  | asyncLoop {t i b o} : Child b (.asyncLoop t i b o)
  | asyncLoopElse {t i b o} : Child o (.asyncLoop t i b o)
  | cond {c b o} : Child b (.cond c b o)
  | condElse {c b o} : Child o (.cond c b o)
  | while {c b o} : Child b (.while c b o)
  | whileElse {c b o} : Child o (.while c b o)
  | with {is b} : Child b (.with is b)
  | asyncWith {is b} : Child b (.asyncWith is b)
  | fn {x d ann decs b} : Child b (.funDef x d ann decs b)
  | cls {x bases kws decs b} : Child b (.classDef x bases kws decs b)
  | tryBody {b hs o f} : Child b (.try b hs o f)
  | tryHandlers {b hs o f} : Child hs (.try b hs o f)
  | tryElse {b hs o f} : Child o (.try b hs o f)
  | tryFinally {b hs o f} : Child f (.try b hs o f)
  | handler {e x b} : Child b (.handler e x b)
  | cases {e cs} : Child cs (.match e cs)
  | case {p xs g b} : Child b (.case p xs g b)

/-- Somewhere in the statement there is an assignment expression. -/
inductive Walrus : S X N → Prop
  | rhs {s n x v} : Occurs (rhs s) n x v → Walrus s
  | lhs {s n x v} : Occurs (lhs s) n x v → Walrus s
  | child {s t} : Child t s → Walrus t → Walrus s

/-- The expression contains no assignment expression. -/
def No (e : E X N) : Prop := ∀ n x v, ¬ Occurs e n x v

/-- The assignment expressions in an expression stand outside of lambdas and were evaluated, or their variable has no value. -/
def Ok (has : X → Bool) (ran : N → Prop) (e : E X N) : Prop :=
  ∀ n x v, Occurs e n x v → (Within e n x v ∧ ran n) ∨ has x = false

/-- A variable, an attribute or an element. -/
def Single (t : T X N) : Prop := (∃ x, t = .name x) ∨ ∃ n e, t = .ref n e

/-- No list stands after a star. -/
def Flat : T X N → Prop
  | .pair a b => Flat a ∧ Flat b
  | .tuple ts => Flat ts
  | .star t => Single t
  | _ => True

/-- A list of variables, attributes and elements. -/
def Singles : T X N → Prop
  | .pair a b => Single a ∧ Singles b
  | .nil => True
  | _ => False

/-- Assignments, expressions, deletions and compound statements made of them, without assignment expressions. -/
def Quiet : S X N → Prop
  | .done => True
  | .seq a b => Quiet a ∧ Quiet b
  | .assign ts v => No (inner ts) ∧ No v
  | .cond c b o => No c ∧ Quiet b ∧ Quiet o
  | .while c b o => No c ∧ Quiet b ∧ Quiet o
  | .try b hs o f => Quiet b ∧ Quiet hs ∧ Quiet o ∧ Quiet f
  | .handler e x b => No e ∧ x = none ∧ Quiet b
  | .match e cs => No e ∧ Quiet cs
  | .case p _ g b => No p ∧ No g ∧ Quiet b
  | .expr e => No e
  | .del ts => No (inner ts)
  | .other => True
  | _ => False

/-- Statements whose bindings are recorded rightly. -/
def Fine (has : X → Bool) (ran : N → Prop) : S X N → Prop
  | .assign ts v => No (inner ts) ∧ No v ∧ Flat ts
  | .annAssign t ann (some v) => No (inner t) ∧ No ann ∧ Ok has ran v ∧ Single t
  | .annAssign t ann none => No (inner t) ∧ No ann ∧ ∃ x, t = .name x ∧ has x = false
  | .augAssign t v => No (inner t) ∧ Ok has ran v ∧ Single t
  | .loop t i _ _ => No (inner t) ∧ No i ∧ Flat t
  | .asyncLoop t i _ _ => No (inner t) ∧ No i ∧ Flat t
  | .cond c _ _ => Ok has ran c
  | .while c b o => ¬ Walrus (.while c b o) ∨ Ok has ran c ∧ Quiet b ∧ Quiet o
  | .with items _ => No (contexts items) ∧ No (innerI items) ∧ ∀ e t, (e, some t) ∈ items → Single t
  | .asyncWith items b => No (contexts items) ∧ No (innerI items) ∧ (∀ e t, (e, some t) ∈ items → Single t) ∧ Quiet b
  | .funDef _ d ann decs _ => No d ∧ No ann ∧ No decs
  | .classDef _ bases kws decs _ => No bases ∧ No kws ∧ No decs
  | .imp as => ∀ a ∈ as, (∃ x, a = .plain x) ∨ ∃ x, a = .named x
  | .try b hs o f => ¬ Walrus (.try b hs o f)
  | .match e cs => ¬ Walrus (.match e cs) ∧ ∀ x, ¬ Captures cs x
  | .expr e => Ok has ran e
  | .del ts => No (inner ts) ∧ Singles ts
  | .other => True
  | _ => False

end Verif.Bind
