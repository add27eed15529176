import Verif.Types.Props

/-!
# Concrete cases
-/

namespace Verif.Types

/-- A class of the notebook. -/
def point : Cls := ⟨"__main__", "Point", some ["Point"]⟩

/-- A class of a library. -/
def frame : Cls := ⟨"pandas", "DataFrame", some ["DataFrame"]⟩

/-- `{"a": [1, 2.5, None], "b": (Point(), DataFrame(), None, 1)}`. -/
def table : Val :=
  .dict [.str, .str] [.list [.int, .float, .none], .tuple [.obj point, .obj frame, .none, .int]]

theorem table_proper : Proper table := by
  refine .dict rfl ?_ ?_
  · intro v hv; simp at hv; subst hv; exact .str
  · intro v hv
    simp at hv
    rcases hv with rfl | rfl
    · refine .list ?_
      intro w hw; simp at hw; rcases hw with rfl | rfl | rfl <;> constructor
    · refine .tuple ?_
      intro w hw; simp at hw; rcases hw with rfl | rfl | rfl | rfl <;> constructor

theorem table_plain : ∀ c, Occurs c table → Plain c := by
  intro c h
  cases h with
  | key hv h => simp at hv; subst hv; cases h
  | value hv h =>
    simp at hv
    rcases hv with rfl | rfl
    · cases h with
      | list hw h => simp at hw; rcases hw with rfl | rfl | rfl <;> cases h
    · cases h with
      | tuple hw h =>
        simp at hw
        rcases hw with rfl | rfl | rfl | rfl <;> cases h <;> exact ⟨rfl, by decide⟩

example : ∃ t, Spells (declared table) t ∧ HasType table t ∧ Tight table t :=
  declared_partial table table_proper table_plain

example : declared table = "Dict[str, Union[List[Optional[float]], " ++
    "Tuple[Union[None, Point, int, pandas.DataFrame], ...]]]" := by decide

/-- A float among integers, and the order does not matter. -/
example : declared (.set [.int, .float, .str]) = "Set[Union[float, str]]" ∧
    declared (.set [.int, .float, .str]) = declared (.set [.str, .float, .int, .str]) :=
  ⟨by decide, set_order _ _ (by intro v; simp; tauto)⟩

example : declared (.list [.none, .obj point]) = "List[Optional[Point]]" ∧
    declared (.list [.none, .obj point]) = declared (.list [.obj point, .none]) :=
  ⟨by decide, list_order _ _ (by intro v; simp; tauto)⟩

/-- `class A: class B: ...`. -/
def inner : Cls := ⟨"__main__", "B", some ["A", "B"]⟩

example : declared (.obj inner) = "B" ∧ ¬ Spells (declared (.obj inner)) (.cls inner) :=
  ⟨by decide, inner_misnamed inner ["A", "B"] rfl (by decide) (by decide)⟩

/-- An object of `A.B` is declared to be one of another class `B` of the notebook, which it is
not. -/
theorem inner_wrong : ∃ c : Cls, Spells (declared (.obj inner)) (.cls c) ∧
    ¬ HasType (.obj inner) (.cls c) := by
  refine ⟨⟨"__main__", "B", some ["B"]⟩, ?_, ?_⟩
  · have : Names "B" ⟨"__main__", "B", some ["B"]⟩ := Names.here (p := ["B"]) (.inl rfl)
    exact .cls this
  · have key : ∀ t, HasType (.obj inner) t → ∀ d, t = .cls d → d = inner := by
      intro t h d hd; cases h <;> simp_all
    intro h
    have := key _ h _ rfl
    simp [inner] at this

end Verif.Types
