/-
Facts about reading: what a text must begin with, that a reading is unique, and that what is read
has matching brackets.
-/
import Verif.Text.Spec

namespace Verif.Text

/-- Can an operand of precedence `n` begin with `t`?  (Grammar of the texts of
statement.py 91-115.) -/
def Begins (n : Nat) (ts : List Tok) : Prop :=
  ∃ t r, ts = t :: r ∧ ((∃ m, t = .name m) ∨ (∃ m, t = .num m) ∨ t = .lp ∨ (t = .op .sub ∧ n ≤ 15))

/-- What texts of a kind begin with (grammar of the texts of statement.py 91-115). -/
def BeginsKind : Kind → List Tok → Prop
  | .lev n, ts => Begins n ts
  | .atom, ts => Begins 18 ts
  | .top, ts => Begins 0 ts
  | _, _ => True

theorem Begins.mono {n m ts} (h : Begins n ts) (hm : m ≤ n) : Begins m ts := by
  obtain ⟨t, r, rfl, h⟩ := h
  refine ⟨t, r, rfl, ?_⟩
  rcases h with h | h | h | ⟨h, hn⟩
  · exact .inl h
  · exact .inr (.inl h)
  · exact .inr (.inr (.inl h))
  · exact .inr (.inr (.inr ⟨h, by omega⟩))

theorem rd_begins {k ts e r} (h : Rd k ts e r) : BeginsKind k ts := by
  induction h with
  | name => exact ⟨_, _, rfl, .inl ⟨_, rfl⟩⟩
  | num => exact ⟨_, _, rfl, .inr (.inl ⟨_, rfl⟩)⟩
  | unit => exact ⟨_, _, rfl, .inr (.inr (.inl rfl))⟩
  | group => exact ⟨_, _, rfl, .inr (.inr (.inl rfl))⟩
  | primary _ _ ih _ => exact Begins.mono ih (by omega)
  | callTl => trivial
  | callEnd => trivial
  | power _ _ ih _ => exact Begins.mono ih (by omega)
  | powerEnd _ _ ih => exact Begins.mono ih (by omega)
  | minus => exact ⟨_, _, rfl, .inr (.inr (.inr ⟨rfl, by omega⟩))⟩
  | factor _ ih => exact Begins.mono ih (by omega)
  | left _ _ _ ih _ => exact Begins.mono ih (by omega)
  | leftTl => trivial
  | leftEnd => trivial
  | topOne _ _ ih => exact Begins.mono ih (by omega)
  | topTup _ _ ih _ => exact Begins.mono ih (by omega)
  | itemsEnd => trivial
  | itemsOne => trivial
  | itemsMore => trivial

theorem begins_not_shut {n ts} (h : Begins n ts) : ¬ Shut ts := by
  obtain ⟨t, r, rfl, h⟩ := h
  intro hs
  simp only [Shut, List.head?_cons, Option.some.injEq, reduceCtorEq, false_or] at hs
  rcases h with ⟨m, rfl⟩ | ⟨m, rfl⟩ | rfl | ⟨rfl, _⟩ <;> simp at hs

theorem lev_no_minus {n ts e r} (hn : 15 < n) (h : Rd (.lev n) (.op .sub :: ts) e r) : False := by
  obtain ⟨t, r', he, h⟩ := rd_begins h
  injection he with h1 h2
  subst h1
  rcases h with ⟨m, h⟩ | ⟨m, h⟩ | h | ⟨_, h⟩
  · cases h
  · cases h
  · cases h
  · omega

theorem top_not_rp {ts e r} (h : Rd .top (.rp :: ts) e r) : False := by
  obtain ⟨t, r', he, h⟩ := rd_begins h
  injection he with h1 h2
  subst h1
  rcases h with ⟨m, h⟩ | ⟨m, h⟩ | h | ⟨h, _⟩ <;> cases h

/-- A reading is unique. -/
theorem rd_det {k ts e r} (h : Rd k ts e r) : ∀ e' r', Rd k ts e' r' → e = e' ∧ r = r' := by
  induction h with
  | name => intro e' r' h'; cases h'; exact ⟨rfl, rfl⟩
  | num => intro e' r' h'; cases h'; exact ⟨rfl, rfl⟩
  | unit =>
    intro e' r' h'
    cases h' with
    | unit => exact ⟨rfl, rfl⟩
    | group h => exact (top_not_rp h).elim
  | group h ih =>
    intro e' r' h'
    cases h' with
    | unit => exact (top_not_rp h).elim
    | group h' =>
      obtain ⟨rfl, h2⟩ := ih _ _ h'
      injection h2 with _ h2
      exact ⟨rfl, h2⟩
  | primary _ _ ih₁ ih₂ =>
    intro e' r' h'
    cases h' with
    | primary h1 h2 =>
      obtain ⟨rfl, rfl⟩ := ih₁ _ _ h1
      exact ih₂ _ _ h2
    | left hn => omega
  | callTl _ _ ih₁ ih₂ =>
    intro e' r' h'
    cases h' with
    | callTl h1 h2 =>
      obtain ⟨h3, h4⟩ := ih₁ _ _ h1
      injection h3 with h3
      injection h4 with _ h4
      subst h3 h4
      exact ih₂ _ _ h2
    | callEnd h => simp at h
  | callEnd h =>
    intro e' r' h'
    cases h' with
    | callTl => simp at h
    | callEnd => exact ⟨rfl, rfl⟩
  | power _ _ ih₁ ih₂ =>
    intro e' r' h'
    cases h' with
    | power h1 h2 =>
      obtain ⟨rfl, h3⟩ := ih₁ _ _ h1
      injection h3 with _ h3
      subst h3
      obtain ⟨rfl, rfl⟩ := ih₂ _ _ h2
      exact ⟨rfl, rfl⟩
    | powerEnd h1 h2 =>
      obtain ⟨rfl, rfl⟩ := ih₁ _ _ h1
      simp at h2
    | left hn => omega
  | powerEnd _ hh ih =>
    intro e' r' h'
    cases h' with
    | power h1 h2 =>
      obtain ⟨rfl, rfl⟩ := ih _ _ h1
      simp at hh
    | powerEnd h1 h2 => exact ih _ _ h1
    | left hn => omega
  | minus _ ih =>
    intro e' r' h'
    cases h' with
    | minus h1 =>
      obtain ⟨rfl, rfl⟩ := ih _ _ h1
      exact ⟨rfl, rfl⟩
    | factor h1 => exact (lev_no_minus (by omega) h1).elim
    | left hn => omega
  | factor h ih =>
    intro e' r' h'
    cases h' with
    | minus h1 => exact (lev_no_minus (by omega) h).elim
    | factor h1 => exact ih _ _ h1
    | left hn => omega
  | left hn _ _ ih₁ ih₂ =>
    intro e' r' h'
    cases h' with
    | left _ h1 h2 =>
      obtain ⟨rfl, rfl⟩ := ih₁ _ _ h1
      exact ih₂ _ _ h2
    | primary => omega
    | power => omega
    | powerEnd => omega
    | minus => omega
    | factor => omega
  | leftTl hn ho _ _ ih₁ ih₂ =>
    intro e' r' h'
    cases h' with
    | leftTl _ _ h1 h2 =>
      obtain ⟨rfl, rfl⟩ := ih₁ _ _ h1
      exact ih₂ _ _ h2
    | leftEnd h => exact (h _ rfl ho).elim
  | leftEnd h =>
    intro e' r' h'
    cases h' with
    | leftTl _ ho => exact (h _ rfl ho).elim
    | leftEnd => exact ⟨rfl, rfl⟩
  | topOne _ hh ih =>
    intro e' r' h'
    cases h' with
    | topOne h1 => exact ih _ _ h1
    | topTup h1 =>
      obtain ⟨rfl, rfl⟩ := ih _ _ h1
      simp at hh
  | topTup _ _ ih₁ ih₂ =>
    intro e' r' h'
    cases h' with
    | topOne h1 hh =>
      obtain ⟨rfl, rfl⟩ := ih₁ _ _ h1
      simp at hh
    | topTup h1 h2 =>
      obtain ⟨rfl, h3⟩ := ih₁ _ _ h1
      injection h3 with _ h3
      subst h3
      obtain ⟨h4, rfl⟩ := ih₂ _ _ h2
      injection h4 with h4
      subst h4
      exact ⟨rfl, rfl⟩
  | itemsEnd hs =>
    intro e' r' h'
    cases h' with
    | itemsEnd => exact ⟨rfl, rfl⟩
    | itemsOne h1 => exact (begins_not_shut (rd_begins h1) hs).elim
    | itemsMore h1 => exact (begins_not_shut (rd_begins h1) hs).elim
  | itemsOne h hh ih =>
    intro e' r' h'
    cases h' with
    | itemsEnd hs => exact (begins_not_shut (rd_begins h) hs).elim
    | itemsOne h1 =>
      obtain ⟨rfl, rfl⟩ := ih _ _ h1
      exact ⟨rfl, rfl⟩
    | itemsMore h1 =>
      obtain ⟨rfl, rfl⟩ := ih _ _ h1
      simp at hh
  | itemsMore h _ ih₁ ih₂ =>
    intro e' r' h'
    cases h' with
    | itemsEnd hs => exact (begins_not_shut (rd_begins h) hs).elim
    | itemsOne h1 hh =>
      obtain ⟨rfl, rfl⟩ := ih₁ _ _ h1
      simp at hh
    | itemsMore h1 h2 =>
      obtain ⟨rfl, h3⟩ := ih₁ _ _ h1
      injection h3 with _ h3
      subst h3
      obtain ⟨h4, rfl⟩ := ih₂ _ _ h2
      injection h4 with h4
      subst h4
      exact ⟨rfl, rfl⟩

theorem rdStmt_det {ts s r} (h : RdStmt ts s r) :
    ∀ s' r', RdStmt ts s' r' → s = s' ∧ r = r' := by
  induction h with
  | last h hh =>
    intro s' r' h'
    cases h' with
    | last h1 =>
      obtain ⟨rfl, rfl⟩ := rd_det h _ _ h1
      exact ⟨rfl, rfl⟩
    | more h1 =>
      obtain ⟨rfl, rfl⟩ := rd_det h _ _ h1
      simp at hh
  | more h _ ih =>
    intro s' r' h'
    cases h' with
    | last h1 hh =>
      obtain ⟨rfl, rfl⟩ := rd_det h _ _ h1
      simp at hh
    | more h1 h2 =>
      obtain ⟨rfl, h3⟩ := rd_det h _ _ h1
      injection h3 with _ h3
      subst h3
      obtain ⟨rfl, rfl⟩ := ih _ _ h2
      exact ⟨rfl, rfl⟩

theorem rdProg_det {ts p} (h : RdProg ts p) : ∀ p', RdProg ts p' → p = p' := by
  induction h with
  | last h =>
    intro p' h'
    cases h' with
    | last h1 =>
      obtain ⟨rfl, _⟩ := rdStmt_det h _ _ h1
      rfl
    | more h1 =>
      obtain ⟨_, h2⟩ := rdStmt_det h _ _ h1
      cases h2
  | more h _ ih =>
    intro p' h'
    cases h' with
    | last h1 =>
      obtain ⟨_, h2⟩ := rdStmt_det h _ _ h1
      cases h2
    | more h1 h2 =>
      obtain ⟨rfl, h3⟩ := rdStmt_det h _ _ h1
      injection h3 with _ h3
      subst h3
      rw [ih _ h2]

/-! ### Brackets -/

/-- The number of open brackets after a text, `none` when one is closed that was not open
(statement.py 111-112 takes brackets for a matching pair). -/
def scan : Nat → List Tok → Option Nat
  | n, [] => some n
  | n, .lp :: ts => scan (n + 1) ts
  | 0, .rp :: _ => none
  | n + 1, .rp :: ts => scan n ts
  | n, _ :: ts => scan n ts

theorem scan_append (p q : List Tok) : ∀ n, scan n (p ++ q) = (scan n p).bind fun m => scan m q := by
  induction p with
  | nil => intro n; rfl
  | cons t p ih =>
    intro n
    cases t <;> first | exact ih _ | skip
    cases n with
    | zero => rfl
    | succ n => exact ih _

theorem scan_up (p : List Tok) : ∀ n m, scan n p = some m → scan (n + 1) p = some (m + 1) := by
  induction p with
  | nil => intro n m h; cases h; rfl
  | cons t p ih =>
    intro n m h
    cases t <;> first | exact ih _ _ h | skip
    cases n with
    | zero => cases h
    | succ n => exact ih _ _ h

/-- Brackets match, and no `=` or end of line inside (the texts of single nodes,
statement.py 100). -/
structure Closed (p : List Tok) : Prop where
  scan : ∀ n, scan n p = some n
  eq : Tok.eq ∉ p
  nl : Tok.nl ∉ p

theorem Closed.nil : Closed [] := ⟨fun _ => rfl, by simp, by simp⟩

theorem Closed.append {p q} (hp : Closed p) (hq : Closed q) : Closed (p ++ q) := by
  refine ⟨fun n => ?_, ?_, ?_⟩
  · rw [scan_append, hp.scan]; exact hq.scan n
  · simp [hp.eq, hq.eq]
  · simp [hp.nl, hq.nl]

theorem Closed.wrap {p} (hp : Closed p) : Closed (.lp :: (p ++ [.rp])) := by
  refine ⟨fun n => ?_, ?_, ?_⟩
  · show Verif.Text.scan (n + 1) (p ++ [.rp]) = some n
    rw [scan_append, hp.scan]; rfl
  · simp [hp.eq]
  · simp [hp.nl]

theorem Closed.name (n : Nat) : Closed [.name n] := ⟨fun _ => rfl, by simp, by simp⟩
theorem Closed.num (n : Nat) : Closed [.num n] := ⟨fun _ => rfl, by simp, by simp⟩
theorem Closed.op (o : Op) : Closed [.op o] := ⟨fun _ => rfl, by simp, by simp⟩
theorem Closed.comma : Closed [.comma] := ⟨fun _ => rfl, by simp, by simp⟩

theorem Closed.cons {t p} (ht : Closed [t]) (hp : Closed p) : Closed (t :: p) := ht.append hp

/-- What is read has matching brackets and lies within one statement. -/
theorem rd_closed {k ts e r} (h : Rd k ts e r) : ∃ p, ts = p ++ r ∧ Closed p := by
  induction h with
  | name => exact ⟨[_], rfl, .name _⟩
  | num => exact ⟨[_], rfl, .num _⟩
  | unit => exact ⟨[_, _], rfl, Closed.nil.wrap⟩
  | group _ ih =>
    obtain ⟨p, rfl, hp⟩ := ih
    exact ⟨_, by simp, hp.wrap⟩
  | primary _ _ ih₁ ih₂ =>
    obtain ⟨q, rfl, hq⟩ := ih₂
    obtain ⟨p, rfl, hp⟩ := ih₁
    exact ⟨p ++ q, by simp, hp.append hq⟩
  | callTl _ _ ih₁ ih₂ =>
    obtain ⟨q, rfl, hq⟩ := ih₂
    obtain ⟨p, rfl, hp⟩ := ih₁
    exact ⟨.lp :: (p ++ [.rp]) ++ q, by simp, hp.wrap.append hq⟩
  | callEnd => exact ⟨[], rfl, .nil⟩
  | power _ _ ih₁ ih₂ =>
    obtain ⟨q, rfl, hq⟩ := ih₂
    obtain ⟨p, rfl, hp⟩ := ih₁
    exact ⟨p ++ .op .pow :: q, by simp, hp.append ((Closed.op _).cons hq)⟩
  | powerEnd _ _ ih => exact ih
  | minus _ ih =>
    obtain ⟨p, rfl, hp⟩ := ih
    exact ⟨.op .sub :: p, rfl, (Closed.op _).cons hp⟩
  | factor _ ih => exact ih
  | left _ _ _ ih₁ ih₂ =>
    obtain ⟨q, rfl, hq⟩ := ih₂
    obtain ⟨p, rfl, hp⟩ := ih₁
    exact ⟨p ++ q, by simp, hp.append hq⟩
  | leftTl _ _ _ _ ih₁ ih₂ =>
    obtain ⟨q, rfl, hq⟩ := ih₂
    obtain ⟨p, rfl, hp⟩ := ih₁
    exact ⟨.op _ :: (p ++ q), by rw [List.cons_append, List.append_assoc],
      (Closed.op _).cons (hp.append hq)⟩
  | leftEnd => exact ⟨[], rfl, .nil⟩
  | topOne _ _ ih => exact ih
  | topTup _ _ ih₁ ih₂ =>
    obtain ⟨q, rfl, hq⟩ := ih₂
    obtain ⟨p, rfl, hp⟩ := ih₁
    exact ⟨p ++ .comma :: q, by simp, hp.append (Closed.comma.cons hq)⟩
  | itemsEnd => exact ⟨[], rfl, .nil⟩
  | itemsOne _ _ ih => exact ih
  | itemsMore _ _ ih₁ ih₂ =>
    obtain ⟨q, rfl, hq⟩ := ih₂
    obtain ⟨p, rfl, hp⟩ := ih₁
    exact ⟨p ++ .comma :: q, by simp, hp.append (Closed.comma.cons hq)⟩

/-- Kinds that read at least one token (grammar of the texts of statement.py 91-115). -/
def Eats : Kind → Prop
  | .lev _ => True
  | .atom => True
  | .top => True
  | _ => False

theorem rd_eats {k ts e r} (h : Rd k ts e r) :
    r.length ≤ ts.length ∧ (Eats k → r.length < ts.length) := by
  induction h with
  | name => simp
  | num => simp
  | unit => simp only [List.length_cons, Eats]; omega
  | group _ ih => simp only [List.length_cons, Eats] at *; omega
  | primary _ _ ih₁ ih₂ =>
    have := ih₁.2 trivial
    exact ⟨by omega, fun _ => by omega⟩
  | callTl _ _ ih₁ ih₂ => simp only [List.length_cons, Eats] at *; omega
  | callEnd => simp [Eats]
  | power _ _ ih₁ ih₂ => simp only [List.length_cons, Eats] at *; omega
  | powerEnd _ _ ih => exact ih
  | minus _ ih => simp only [List.length_cons, Eats] at *; omega
  | factor _ ih => exact ih
  | left _ _ _ ih₁ ih₂ =>
    have := ih₁.2 trivial
    exact ⟨by omega, fun _ => by omega⟩
  | leftTl _ _ _ _ ih₁ ih₂ => simp only [List.length_cons, Eats] at *; omega
  | leftEnd => simp [Eats]
  | topOne _ _ ih => exact ih
  | topTup _ _ ih₁ ih₂ => simp only [List.length_cons, Eats] at *; omega
  | itemsEnd => simp [Eats]
  | itemsOne _ _ ih => exact ⟨ih.1, fun h => h.elim⟩
  | itemsMore _ _ ih₁ ih₂ => simp only [List.length_cons, Eats] at *; omega

theorem rd_top_piece {ts e r} (h : Rd .top ts e r) : ∃ p, ts = p ++ r ∧ Closed p ∧ p ≠ [] := by
  obtain ⟨p, rfl, hp⟩ := rd_closed h
  refine ⟨p, rfl, hp, ?_⟩
  rintro rfl
  have := (rd_eats h).2 trivial
  simp at this

/-- A statement that is read is made of non-empty texts with matching brackets. -/
theorem rdStmt_pieces {ts s r} (h : RdStmt ts s r) :
    ∃ ps : List (List Tok), ps ≠ [] ∧ ts = [Tok.eq].intercalate ps ++ r ∧
      (∀ p ∈ ps, Closed p ∧ p ≠ []) := by
  induction h with
  | last h _ =>
    obtain ⟨p, rfl, hp, hn⟩ := rd_top_piece h
    exact ⟨[p], by simp, by simp, by simpa using ⟨hp, hn⟩⟩
  | more h _ ih =>
    obtain ⟨ps, hps, rfl, hall⟩ := ih
    obtain ⟨p, rfl, hp, hn⟩ := rd_top_piece h
    refine ⟨p :: ps, by simp, ?_, ?_⟩
    · rw [List.intercalate_cons_of_ne_nil hps]
      simp
    · intro q hq
      rcases List.mem_cons.mp hq with rfl | hq
      · exact ⟨hp, hn⟩
      · exact hall q hq

theorem rdProg_pieces {ts p} (h : RdProg ts p) :
    ∃ ls : List (List (List Tok)), ls ≠ [] ∧
      ts = [Tok.nl].intercalate (ls.map ([Tok.eq].intercalate ·)) ∧
      (∀ ps ∈ ls, ps ≠ [] ∧ ∀ p ∈ ps, Closed p ∧ p ≠ []) := by
  induction h with
  | last h =>
    obtain ⟨ps, hps, rfl, hall⟩ := rdStmt_pieces h
    exact ⟨[ps], by simp, by simp, by simpa using ⟨hps, hall⟩⟩
  | more h _ ih =>
    obtain ⟨ls, hls, rfl, hl⟩ := ih
    obtain ⟨ps, hps, rfl, hall⟩ := rdStmt_pieces h
    refine ⟨ps :: ls, by simp, ?_, ?_⟩
    · rw [List.map_cons, List.intercalate_cons_of_ne_nil (by simpa using hls)]
      simp
    · intro q hq
      rcases List.mem_cons.mp hq with rfl | hq
      · exact ⟨hps, hall⟩
      · exact hl q hq

end Verif.Text
