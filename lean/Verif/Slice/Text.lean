import Verif.Slice.Model

/-! # Text of a slice and memoized seeds (`slicing/mixin.py` 54-83, 454-498, 533-553) -/

namespace Verif.Slice
open Verif

/-- Python `str`, as a list of characters. -/
abbrev Text := List Char

/-- `sep.join(parts)`. -/
def joinWith (sep : Text) : List Text → Text
  | [] => []
  | [t] => t
  | t :: ts => t ++ sep ++ joinWith sep ts

/-- `d.setdefault(k, []).append(t)` on an insertion-ordered dict, `slicing/mixin.py` 460-462. -/
def setdefaultAppend (k : Int) (t : Text) : List (Int × List Text) → List (Int × List Text)
  | [] => [(k, [t])]
  | (k', ts) :: rest => if k' = k then (k', ts ++ [t]) :: rest else (k', ts) :: setdefaultAppend k t rest

/-- The loop of `make_cell_dict_from_closure`, `slicing/mixin.py` 458-462. An element of the closure is given by its
cell number and its text. -/
def groupByCell (closure : List (Int × Text)) : List (Int × List Text) :=
  closure.foldl (fun d x => setdefaultAppend x.1 x.2 d) []

/-- `make_cell_dict_from_closure`, `slicing/mixin.py` 454-466. -/
def makeCellDict (closure : List (Int × Text)) : List (Int × Text) :=
  (groupByCell closure).map fun e => (e.1, joinWith ['\n'] e.2)

/-- The blackening loop of `format_slice`, `slicing/mixin.py` 539-547; `black` returns `none` when it raises. -/
def blackenDict (black : Option (Text → Option Text)) (d : List (Int × Text)) : List (Int × Text) :=
  match black with
  | none => d
  | some f => d.map fun e => (e.1, match f e.2 with | some t => t | none => e.2)

/-- `sorted(self.raw_slice.items())`, `slicing/mixin.py` 82. Keys of a dict are distinct, so only keys matter. -/
def sortedItems (d : List (Int × Text)) : List (Int × Text) :=
  d.insertionSort fun a b => a.1 ≤ b.1

/-- `str.strip()`; simplification: whitespace is Lean's `Char.isWhitespace`. -/
def strip (t : Text) : Text :=
  ((t.dropWhile Char.isWhitespace).reverse.dropWhile Char.isWhitespace).reverse

/-- `f"# Cell {cell_num}\n"`, `slicing/mixin.py` 81. -/
def header (n : Int) : Text := "# Cell ".toList ++ (toString n).toList ++ ['\n']

/-- `Slice._get_slice_text_from_slice`, `slicing/mixin.py` 78-83. -/
def sliceText (includeHeaders : Bool) (d : List (Int × Text)) : Text :=
  strip (joinWith (if includeHeaders then ['\n', '\n'] else ['\n'])
    ((sortedItems d).map fun e => if includeHeaders then header e.1 ++ e.2 else e.2))

/-- `TimestampOrCounter`, `types.py`. -/
inductive TimeOrCtr where
  | ts (t : Timestamp)
  | ctr (n : Int)
  deriving DecidableEq, Repr

/-- Cell number looked up by `cells().at_timestamp(seed)`, `data_model/cell.py` 508-516. -/
def TimeOrCtr.cell : TimeOrCtr → Int
  | .ts t => t.cellNum
  | .ctr n => n

/-- Loop body of `_process_memoized_seeds`, `slicing/mixin.py` 486-497. `skipped n` is
`cells().at_timestamp(n).skipped_due_to_memoization_ctr`, `none` when there is no such cell (`KeyError`). A seed given as
a sliceable has already been replaced by its timestamp (line 487-488). -/
def processSeed (skipped : Int → Option Int) (seed : TimeOrCtr) : Except Err TimeOrCtr :=
  match skipped seed.cell with
  | none => .error .crash
  | some m =>
    if m = -1 then .ok seed
    else match seed with
      | .ctr _ => .ok (.ctr m)
      | .ts t => .ok (.ts ⟨m, t.stmtNum⟩)

/-- `set.add` on a list without duplicates. -/
def setAdd {α : Type} [DecidableEq α] (s : List α) (x : α) : List α := if x ∈ s then s else s ++ [x]

/-- `_process_memoized_seeds`, `slicing/mixin.py` 481-498. -/
def processSeeds (skipped : Int → Option Int) (seeds : List TimeOrCtr) : Except Err (List TimeOrCtr) :=
  seeds.foldlM (fun acc s => match processSeed skipped s with
    | .error e => .error e
    | .ok s' => .ok (setAdd acc s')) []

end Verif.Slice
