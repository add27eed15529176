import Verif.Base.Assoc

/-!
# Matching elements with the expressions of a literal or with the targets of an assignment

Models `match_container_obj_or_namespace_with_literal_nodes` (`tracing/utils.py` 15-37), the attribution of elements in
`after_literal` (`tracing/ipyflow_tracer.py` 1308-1346), and
`_handle_store_target_tuple_unpack_from_namespace` / `_from_deps` / `_handle_starred_store_target`
(`data_model/statement.py` 425-523).

Expressions and elements are given by their indices. -/

namespace Verif.Literal
open Verif

/-- The loop of `tracing/utils.py` 26-37: `star` says which expressions are starred, the first number is the number of
elements left (`len(container) - i`), the second `cur_elt_idx + 1`. The result is the expression for each element, and
whether the loop ended without `IndexError` (36). -/
def go (star : List Bool) : Nat → Nat → List Nat × Bool
  | 0, _ => ([], true)
  | rem + 1, next =>
    if next = 0 ∨ star[next - 1]? ≠ some true ∨ star.length - next ≥ rem + 1 then
      if next < star.length then
        let r := go star rem (next + 1)
        (next :: r.1, r.2)
      else ([], false)
    else
      let r := go star rem next
      ((next - 1) :: r.1, r.2)

/-- `tracing/utils.py` 24-37 for a container of `n` elements. -/
def matchSeq (star : List Bool) (n : Nat) : List Nat × Bool := go star n 0

/-- `tracing/ipyflow_tracer.py` 1311-1338: elements matched with a starred expression are attributed to the element
number `starred_idx` of the value of that expression (`some k`), the others to the expression (`none`). -/
def attrib (star : List Bool) : List Nat → Nat → List (Nat × Option Nat)
  | [], _ => []
  | j :: l, k =>
    if star[j]? = some true then (j, some k) :: attrib star l (k + 1) else (j, none) :: attrib star l k

/-- `tracing/utils.py` 21-23: the items of a dictionary and the pairs of key and value expressions, side by side. -/
def matchDict {α : Type} (items : List α) (exprs : Nat) : List (α × Nat) := items.zip (List.range exprs)

/-- An entry of a dictionary display: `key: value`, or `**mapping` with the keys of the mapping. -/
inductive Entry (κ : Type) where
  | pair (k : κ)
  | splat (ks : List κ)
  deriving DecidableEq, Repr

/-- Python's evaluation of an entry of a dictionary display, with the index of the entry in place of the values. -/
def dictStep {κ : Type} [DecidableEq κ] (d : List (κ × Nat)) : Entry κ × Nat → List (κ × Nat)
  | (.pair k, i) => Assoc.set d k i
  | (.splat ks, i) => ks.foldl (fun d k => Assoc.set d k i) d

/-- Python's evaluation of a dictionary display: the keys with the index of the entry that gave the value. -/
def evalDict {κ : Type} [DecidableEq κ] (es : List (Entry κ)) : List (κ × Nat) := es.zipIdx.foldl dictStep []

/-- Targets of an assignment. Simplification: starred targets are names. -/
inductive Target (ν : Type) where
  | name (x : ν)
  | star (x : ν)
  | tup (ts : List (Target ν))

/-- What is recorded for a name: its dependencies, and, for a starred name, those of its elements
(`data_model/statement.py` 443-478). -/
inductive Asg (ν σ : Type) where
  | name (x : ν) (deps : List σ)
  | star (x : ν) (deps : List σ) (elts : List (Option σ))
  deriving DecidableEq

/-- The assignments that were recorded, and whether no exception occurred. -/
abbrev Out (ν σ : Type) := List (Asg ν σ) × Bool

variable {ν σ : Type}

mutual
/-- `_handle_store_target_tuple_unpack_from_deps`, `data_model/statement.py` 425-441, one target. -/
def fromDeps (deps : List σ) : Target ν → List (Asg ν σ)
  | .name x => [.name x deps]
  | .star x => [.name x deps]
  | .tup ts => fromDepsList deps ts
/-- The loop over the targets, `data_model/statement.py` 431-441. -/
def fromDepsList (deps : List σ) : List (Target ν) → List (Asg ν σ)
  | [] => []
  | t :: ts => fromDeps deps t ++ fromDepsList deps ts
end

/-- Is the target starred? (`ast.Starred`, `tracing/utils.py` 31) -/
def Target.isStar : Target ν → Bool
  | .star _ => true
  | _ => false

/-- The loop of `data_model/statement.py` 489-521 over the pairs of element and target index; `hs` are the ways to handle the
targets (`inl` for a starred one), `saved` is `saved_starred_node` with `saved_starred_deps`. The
starred name itself gets no dependencies (`_handle_starred_store_target` 466-476). -/
def loop (hs : List (ν ⊕ (Option σ → Out ν σ))) : List (Option σ × Nat) → Option (ν × List (Option σ)) → Bool → Out ν σ
  | [], saved, ok => (if ok then (saved.map fun x => Asg.star x.1 [] x.2).toList else [], ok)
  | (d, j) :: rest, saved, ok =>
    match hs[j]? with
    | none => ([], false)
    | some (.inl x) =>
      loop hs rest (some (x, (match saved with
        | some (_, l) => l
        | none => []) ++ [d])) ok
    | some (.inr h) =>
      match h d with
      | (l, true) => let r := loop hs rest saved ok; (l ++ r.1, r.2)
      | (l, false) => (l, false)

mutual
/-- `data_model/statement.py` 494-519, one target that is not starred. `env` gives the elements of the namespace of the
object of a symbol (`flow().namespaces.get(inner_dep.obj_id)`), if there is one with an object; a missing symbol for a
nested target raises `AttributeError` (503). -/
def handler (env : σ → Option (List (Option σ))) (extra : List σ) : Target ν → Option σ → Out ν σ
  | .name x, d => ([.name x (d.toList ++ extra)], true)
  | .star x, d => ([.name x (d.toList ++ extra)], true)
  | .tup _, none => ([], false)
  | .tup ts, some d =>
    match env d with
    | none => (fromDepsList (d :: extra) ts, true)
    | some es =>
      let m := matchSeq (ts.map Target.isStar) es.length
      loop (handlers env extra ts) (es.zip m.1) none m.2
/-- The ways to handle the targets, `data_model/statement.py` 494-519. -/
def handlers (env : σ → Option (List (Option σ))) (extra : List σ) : List (Target ν) → List (ν ⊕ (Option σ → Out ν σ))
  | [] => []
  | .star x :: ts => .inl x :: handlers env extra ts
  | .name x :: ts => .inr (fun d => ([.name x (d.toList ++ extra)], true)) :: handlers env extra ts
  | .tup us :: ts => .inr (handler env extra (.tup us)) :: handlers env extra ts
end

/-- `_handle_store_target_tuple_unpack_from_namespace`, `data_model/statement.py` 480-523: `es` are the symbols of the
elements of the right-hand side (`None` if there is none), `extra` the symbols that were called (562-565). -/
def unpack (env : σ → Option (List (Option σ))) (extra : List σ) (ts : List (Target ν)) (es : List (Option σ)) : Out ν σ :=
  let m := matchSeq (ts.map Target.isStar) es.length
  loop (handlers env extra ts) (es.zip m.1) none m.2

end Verif.Literal
