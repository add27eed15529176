/-
Which texts of statements Python reads back as the statements they came from.
-/
import Verif.Text.Trip
import Mathlib.Data.List.Forall2

namespace Verif.Text

theorem unparse_top (u : Unp) (e : Expr) (r : List Tok) (hr : Shut r) :
    Rd .top (unparse u 4 e ++ r) e r :=
  .topOne (plain_four (unparse_fits u e 9 (by omega)) r hr.free) hr.not_comma

theorem inner_top (u : Unp) (e : Expr) (es : Exprs) (r : List Tok) (hr : Shut r) :
    Rd .top (inner u (.cons e es) ++ r) (.tup (.cons e es)) r :=
  inner_read (unparse_fits u e 9 (by omega)) (args_read u es) r hr

theorem unparse_two (u : Unp) (e : Expr) :
    unparse u 2 e = unparse u 4 e ∨
      ∃ a es, e = .tup (.cons a es) ∧ unparse u 2 e = inner u (.cons a es) := by
  have hw : ∀ p, 9 ≤ p → wraps u 2 p = wraps u 4 p := by
    intro p hp
    cases u with
    | builtin =>
      simp only [wraps, decide_eq_decide]
      omega
    | package => rfl
  cases e with
  | name => left; simp only [unparse]
  | num => left; simp only [unparse]
  | neg e => left; simp only [unparse, hw 15 (by omega)]
  | bin o a b => left; simp only [unparse, hw _ (prec_bounds o).1]
  | call f as => left; simp only [unparse]
  | tup es =>
    cases es with
    | nil => left; simp only [unparse]
    | cons a es =>
      cases u with
      | builtin => exact .inr ⟨a, es, rfl, by rw [unparse_tup]; rfl⟩
      | package => left; rw [unparse_tup, unparse_tup]; rfl

theorem target_top (u : Unp) (e : Expr) (r : List Tok) (hr : Shut r) :
    Rd .top (unparse u 2 e ++ r) e r := by
  rcases unparse_two u e with h | ⟨a, es, rfl, h⟩
  · rw [h]; exact unparse_top u e r hr
  · rw [h]; exact inner_top u a es r hr

theorem shut_nil : Shut [] := .inl rfl

theorem closed_of_top {t e} (h : ∀ r, Shut r → Rd .top (t ++ r) e r) : Closed t := by
  obtain ⟨p, hp, hc⟩ := rd_closed (h [] shut_nil)
  rw [List.append_nil, List.append_nil] at hp
  exact hp ▸ hc

theorem unparse_closed (u : Unp) (q : Nat) (hq : 3 ≤ q) (e : Expr) : Closed (unparse u q e) := by
  have h := unparse_fits u e q hq
  have hf : ∀ n, Free n [] := fun n => shut_nil.free
  have : ∃ n, Rd (.lev n) (unparse u q e ++ []) e [] := by
    rcases Nat.lt_or_ge q 17 with hq' | hq'
    · exact ⟨q, h.plain (by omega) [] (hf _)⟩
    · exact ⟨17, h.plain17 hq' [] (hf _)⟩
  obtain ⟨n, hn⟩ := this
  obtain ⟨p, hp, hc⟩ := rd_closed hn
  rw [List.append_nil, List.append_nil] at hp
  exact hp ▸ hc

theorem unparse_ne (u : Unp) (q : Nat) (hq : 3 ≤ q) (e : Expr) : unparse u q e ≠ [] := by
  intro h0
  have h := unparse_fits u e q hq
  have hf : ∀ n, Free n [] := fun n => shut_nil.free
  have : ∃ n, Rd (.lev n) (unparse u q e ++ []) e [] := by
    rcases Nat.lt_or_ge q 17 with hq' | hq'
    · exact ⟨q, h.plain (by omega) [] (hf _)⟩
    · exact ⟨17, h.plain17 hq' [] (hf _)⟩
  obtain ⟨n, hn⟩ := this
  rw [h0] at hn
  have := (rd_eats hn).2 trivial
  simp at this

/-! ### The brackets at the two ends -/

theorem head_append {p q : List Tok} (h : p ≠ []) : (p ++ q).head? = p.head? := by
  cases p with
  | nil => exact (h rfl).elim
  | cons => rfl

theorem last_append {p q : List Tok} (h : q ≠ []) : (p ++ q).getLast? = q.getLast? := by
  rw [List.getLast?_append]
  cases hq : q.getLast? with
  | none => exact (h (List.getLast?_eq_none_iff.mp hq)).elim
  | some => rfl

theorem paren_head {b t} : (paren b t).head? = some .lp ↔ b = true ∨ t.head? = some .lp := by
  cases b <;> simp [paren]

theorem paren_last {b t} : (paren b t).getLast? = some .rp ↔ b = true ∨ t.getLast? = some .rp := by
  cases b with
  | false => simp [paren]
  | true =>
    simp only [paren, if_true, true_or, iff_true]
    rw [show (Tok.lp :: (t ++ [Tok.rp])) = (Tok.lp :: t) ++ [Tok.rp] from rfl]
    rw [last_append (by simp)]
    rfl

theorem opens_iff : (e : Expr) → ∀ q, 3 ≤ q →
    ((unparse .builtin q e).head? = some .lp ↔ Opens q e)
  | .name n, q, hq => by simp [unparse, Opens]
  | .num n, q, hq => by simp [unparse, Opens]
  | .neg e, q, hq => by
    simp only [unparse, Opens]
    rw [paren_head]
    simp [wraps]
  | .bin o a b, q, hq => by
    simp only [unparse, Opens]
    rw [paren_head, head_append (unparse_ne _ _ (precL_bounds o).1 a),
      opens_iff a _ (precL_bounds o).1]
    simp [wraps]
  | .call f as, q, hq => by
    simp only [unparse, Opens]
    rw [head_append (unparse_ne _ _ (by omega) f), opens_iff f 18 (by omega)]
  | .tup .nil, q, hq => by simp [unparse, Opens]
  | .tup (.cons e es), q, hq => by
    rw [unparse_tup, paren_head, wrapsTuple_true hq]
    simp [Opens]

theorem closes_iff : (e : Expr) → ∀ q, 3 ≤ q →
    ((unparse .builtin q e).getLast? = some .rp ↔ Closes q e)
  | .name n, q, hq => by simp [unparse, Closes]
  | .num n, q, hq => by simp [unparse, Closes]
  | .neg e, q, hq => by
    simp only [unparse, Closes]
    rw [paren_last, show Tok.op Op.sub :: unparse .builtin 15 e
        = [Tok.op Op.sub] ++ unparse .builtin 15 e from rfl,
      last_append (unparse_ne _ _ (by omega) e), closes_iff e 15 (by omega)]
    simp [wraps]
  | .bin o a b, q, hq => by
    simp only [unparse, Closes]
    rw [paren_last, last_append (by simp), show Tok.op o :: unparse .builtin (precR o) b
        = [Tok.op o] ++ unparse .builtin (precR o) b from rfl,
      last_append (unparse_ne _ _ (precR_bounds o).1 b), closes_iff b _ (precR_bounds o).1]
    simp [wraps]
  | .call f as, q, hq => by
    simp only [unparse, Closes, iff_true]
    rw [last_append (by simp), show Tok.lp :: (args .builtin as ++ [Tok.rp])
      = (Tok.lp :: args .builtin as) ++ [Tok.rp] from rfl, last_append (by simp)]
    rfl
  | .tup .nil, q, hq => by simp [unparse, Closes]
  | .tup (.cons e es), q, hq => by
    rw [unparse_tup, paren_last, wrapsTuple_true hq]
    simp [Closes]

/-! ### Taking the brackets off -/

theorem strip_wrapped {e : Expr} (h : strippable e = true) (t : List Tok) :
    strip e (.lp :: (t ++ [.rp])) = t := by
  have hl : (Tok.lp :: (t ++ [Tok.rp])).getLast? = some .rp := paren_last (b := true).mpr (.inl rfl)
  simp [strip, h, hl]

theorem strip_read (u : Unp) (e : Expr) (h : ¬ Lost u e) (r : List Tok) (hr : Shut r) :
    Rd .top (strip e (unparse u 4 e) ++ r) e r := by
  cases e with
  | name => exact unparse_top u _ r hr
  | num => exact unparse_top u _ r hr
  | neg e => exact unparse_top u _ r hr
  | call f as => exact unparse_top u _ r hr
  | tup es =>
    cases es with
    | nil => cases u <;> exact (h (by simp [Lost, Spoilt])).elim
    | cons a es =>
      rw [unparse_tup, wrapsTuple_true (by omega)]
      simp only [paren, if_true]
      rw [strip_wrapped rfl]
      exact inner_top u a es r hr
  | bin o a b =>
    cases u with
    | package =>
      simp only [unparse, paren, wraps, if_true]
      rw [strip_wrapped rfl]
      have := fits_bin (unparse_fits .package a _ (precL_bounds o).1)
        (unparse_fits .package b _ (precR_bounds o).1) 9 (prec_bounds o).1
      exact .topOne (this.plain (by omega) r hr.free) hr.not_comma
    | builtin =>
      have hs : strip (.bin o a b) (unparse .builtin 4 (.bin o a b))
          = unparse .builtin 4 (.bin o a b) := by
        unfold strip
        rw [if_neg]
        intro hc
        simp only [Bool.and_eq_true, decide_eq_true_eq] at hc
        have h1 := (opens_iff _ 4 (by omega)).mp hc.1.2
        have h2 := (closes_iff _ 4 (by omega)).mp hc.2
        simp only [Opens, Closes] at h1 h2
        have := prec_bounds o
        rcases h1 with h1 | h1
        · omega
        · rcases h2 with h2 | h2
          · omega
          · exact h ⟨h1, h2⟩
      rw [hs]
      exact unparse_top .builtin _ r hr

theorem scan_opened {w : List Tok} (h : Closed (.lp :: w)) : scan 0 w = none := by
  have h1 : scan 1 w = some 0 := h.scan 0
  cases h0 : scan 0 w with
  | none => rfl
  | some m =>
    have := scan_up w 0 m h0
    rw [h1] at this
    simp at this

/-- What is left of a lost text. -/
theorem strip_lost (u : Unp) (e : Expr) (h : Lost u e) :
    strip e (unparse u 4 e) = [] ∨ scan 0 (strip e (unparse u 4 e)) = none := by
  have hnil : strip (.tup .nil) (unparse u 4 (.tup .nil)) = [] := by
    simp only [unparse]
    exact strip_wrapped (t := []) rfl
  cases u with
  | package => cases h; exact .inl hnil
  | builtin =>
    cases e with
    | name => exact h.elim
    | num => exact h.elim
    | neg e => exact h.elim
    | call f as => exact h.elim
    | tup es =>
      cases es with
      | nil => exact .inl hnil
      | cons => exact h.elim
    | bin o a b =>
      right
      obtain ⟨h1, h2⟩ := h
      have hw : wraps .builtin 4 (prec o) = false := by
        have := prec_bounds o
        simp only [wraps, decide_eq_false_iff_not]
        omega
      have hc := unparse_closed .builtin _ (precL_bounds o).1 a
      have hl := (opens_iff a _ (precL_bounds o).1).mpr h1
      have hr := (closes_iff b _ (precR_bounds o).1).mpr h2
      have hne := unparse_ne .builtin _ (precR_bounds o).1 b
      simp only [unparse, hw, paren]
      generalize unparse .builtin (precL o) a = ta at *
      generalize unparse .builtin (precR o) b = tb at *
      cases ta with
      | nil => simp at hl
      | cons t w =>
        simp only [List.head?_cons, Option.some.injEq] at hl
        subst hl
        have : strip (.bin o a b) (.lp :: w ++ .op o :: tb) = w ++ .op o :: tb.dropLast := by
          have hlast : (Tok.lp :: w ++ Tok.op o :: tb).getLast? = some .rp := by
            rw [last_append (by simp), show Tok.op o :: tb = [Tok.op o] ++ tb from rfl,
              last_append hne, hr]
          unfold strip
          rw [if_pos]
          · simp only [List.cons_append, List.tail_cons]
            rw [List.dropLast_append_of_ne_nil (by simp), List.dropLast_cons_of_ne_nil hne]
          · rw [hlast]
            simp only [strippable, List.cons_append, List.length_cons, List.length_append,
              List.head?_cons, decide_true, Bool.true_and, Bool.and_true, decide_eq_true_eq]
            omega
        show scan 0 (strip (.bin o a b) (.lp :: w ++ .op o :: tb)) = none
        rw [this, scan_append, scan_opened hc]
        rfl

/-! ### Statements and lines -/

/-- Brackets match within one line (texts of statements, statement.py 92-103). -/
structure Level (p : List Tok) : Prop where
  scan : ∀ n, scan n p = some n
  nl : Tok.nl ∉ p

theorem Closed.level {p} (h : Closed p) : Level p := ⟨h.scan, h.nl⟩

theorem join_level {ps : List (List Tok)} (h : ∀ p ∈ ps, Closed p) :
    Level ([Tok.eq].intercalate ps) := by
  induction ps with
  | nil => exact ⟨fun _ => rfl, by simp⟩
  | cons p ps ih =>
    have hp := h p (by simp)
    cases ps with
    | nil => simpa using hp.level
    | cons q ps =>
      have ih := ih fun x hx => h x (by simp [hx])
      rw [List.intercalate_cons_of_ne_nil (by simp)]
      refine ⟨fun n => ?_, ?_⟩
      · rw [List.append_assoc, scan_append, hp.scan]
        exact ih.scan n
      · simp only [List.mem_append, not_or]
        exact ⟨⟨hp.nl, by simp⟩, ih.nl⟩

theorem join_broken {ps : List (List Tok)} (h : ∀ p ∈ ps, Closed p ∨ scan 0 p = none)
    (hb : ∃ p ∈ ps, scan 0 p = none) : scan 0 ([Tok.eq].intercalate ps) = none := by
  induction ps with
  | nil => obtain ⟨p, hp, _⟩ := hb; simp at hp
  | cons p ps ih =>
    cases ps with
    | nil =>
      obtain ⟨q, hq, hb⟩ := hb
      simp only [List.mem_singleton] at hq
      subst hq
      simpa using hb
    | cons q ps =>
      rw [List.intercalate_cons_of_ne_nil (by simp), List.append_assoc, scan_append]
      rcases h p (by simp) with hp | hp
      · rw [hp.scan]
        show scan 0 ([Tok.eq].intercalate (q :: ps)) = none
        refine ih (fun x hx => h x (by simp [hx])) ?_
        obtain ⟨x, hx, hb⟩ := hb
        rcases List.mem_cons.mp hx with rfl | hx
        · rw [hp.scan] at hb; simp at hb
        · exact ⟨x, hx, hb⟩
      · rw [hp]; rfl

theorem logical_broken (p q : List Tok) : ∀ d, scan d p = none → logical d (p ++ q) = none := by
  induction p with
  | nil => intro d h; simp [scan] at h
  | cons t p ih =>
    intro d h
    cases t with
    | lp =>
      have := ih (d + 1) h
      simp only [List.cons_append, logical]
      rw [this]; rfl
    | rp =>
      cases d with
      | zero => simp only [List.cons_append, logical]
      | succ d =>
        simp only [List.cons_append, logical]
        rw [ih d h]; rfl
    | nl =>
      cases d with
      | zero =>
        simp only [List.cons_append, logical]
        rw [ih 0 h]; rfl
      | succ d =>
        simp only [List.cons_append, logical]
        exact ih (d + 1) h
    | name => simp only [List.cons_append, logical]; rw [ih d h]; rfl
    | num => simp only [List.cons_append, logical]; rw [ih d h]; rfl
    | comma => simp only [List.cons_append, logical]; rw [ih d h]; rfl
    | eq => simp only [List.cons_append, logical]; rw [ih d h]; rfl
    | op => simp only [List.cons_append, logical]; rw [ih d h]; rfl

theorem logical_through (p q : List Tok) : ∀ d m, scan d p = some m → Tok.nl ∉ p →
    logical d (p ++ q) = (logical m q).map (p ++ ·) := by
  induction p with
  | nil =>
    intro d m h _
    simp only [scan, Option.some.injEq] at h
    subst h
    simp
  | cons t p ih =>
    intro d m h hn
    have hn' : Tok.nl ∉ p := fun h => hn (by simp [h])
    cases t with
    | lp =>
      simp only [List.cons_append, logical]
      rw [ih _ _ h hn', Option.map_map]; rfl
    | rp =>
      cases d with
      | zero => simp [scan] at h
      | succ d =>
        simp only [List.cons_append, logical]
        rw [ih _ _ h hn', Option.map_map]; rfl
    | nl => simp at hn
    | name => simp only [List.cons_append, logical]; rw [ih _ _ h hn', Option.map_map]; rfl
    | num => simp only [List.cons_append, logical]; rw [ih _ _ h hn', Option.map_map]; rfl
    | comma => simp only [List.cons_append, logical]; rw [ih _ _ h hn', Option.map_map]; rfl
    | eq => simp only [List.cons_append, logical]; rw [ih _ _ h hn', Option.map_map]; rfl
    | op => simp only [List.cons_append, logical]; rw [ih _ _ h hn', Option.map_map]; rfl

theorem logical_lines {ls : List (List Tok)} (h : ∀ l ∈ ls, Level l) :
    logical 0 ([Tok.nl].intercalate ls) = some ([Tok.nl].intercalate ls) := by
  induction ls with
  | nil => rfl
  | cons l ls ih =>
    have hl := h l (by simp)
    cases ls with
    | nil =>
      have := logical_through l [] 0 0 (hl.scan 0) hl.nl
      simpa [logical] using this
    | cons q ls =>
      have ih := ih fun x hx => h x (by simp [hx])
      rw [List.intercalate_cons_of_ne_nil (by simp), List.append_assoc,
        logical_through _ _ 0 0 (hl.scan 0) hl.nl]
      simp only [List.singleton_append, logical]
      rw [ih]; rfl

theorem logical_lines_broken {ls : List (List Tok)} (h : ∀ l ∈ ls, Level l ∨ scan 0 l = none)
    (hb : ∃ l ∈ ls, scan 0 l = none) : logical 0 ([Tok.nl].intercalate ls) = none := by
  induction ls with
  | nil => obtain ⟨p, hp, _⟩ := hb; simp at hp
  | cons l ls ih =>
    cases ls with
    | nil =>
      obtain ⟨q, hq, hb⟩ := hb
      simp only [List.mem_singleton] at hq
      subst hq
      have := logical_broken q [] 0 hb
      simpa using this
    | cons q ls =>
      rw [List.intercalate_cons_of_ne_nil (by simp), List.append_assoc]
      rcases h l (by simp) with hl | hl
      · rw [logical_through _ _ 0 0 (hl.scan 0) hl.nl]
        simp only [List.singleton_append, logical]
        rw [ih (fun x hx => h x (by simp [hx])) ?_]
        · rfl
        · obtain ⟨x, hx, hb⟩ := hb
          rcases List.mem_cons.mp hx with rfl | hx
          · rw [hl.scan] at hb; simp at hb
          · exact ⟨x, hx, hb⟩
      · exact logical_broken _ _ 0 hl

/-! ### Texts of statements -/

theorem forall₂_mem {R : List Tok → Expr → Prop} {ps es} (h : List.Forall₂ R ps es) :
    ∀ p ∈ ps, ∃ e ∈ es, R p e := by
  induction h with
  | nil => intro p hp; simp at hp
  | cons hr _ ih =>
    intro p hp
    rcases List.mem_cons.mp hp with rfl | hp
    · exact ⟨_, by simp, hr⟩
    · obtain ⟨e, he, h⟩ := ih p hp
      exact ⟨e, by simp [he], h⟩

theorem stmt_read (ps : List (List Tok)) (es : List Expr) (r : List Tok)
    (hr : r.head? = none ∨ r.head? = some .nl) (hne : es ≠ [])
    (h : List.Forall₂ (fun p e => ∀ r, Shut r → Rd .top (p ++ r) e r) ps es) :
    RdStmt ([Tok.eq].intercalate ps ++ r) es r := by
  induction h with
  | nil => exact (hne rfl).elim
  | @cons p e ps es hp hps ih =>
    have hs : Shut r := by
      rcases hr with h | h
      · exact .inl h
      · exact .inr (.inr (.inr h))
    cases hps with
    | nil =>
      simp only [List.intercalate_singleton]
      refine .last (hp r hs) fun h => ?_
      rcases hr with h' | h' <;> rw [h'] at h <;> simp at h
    | @cons q e' ps es hq hps =>
      rw [List.intercalate_cons_of_ne_nil (by simp), List.append_assoc, List.append_assoc]
      exact .more (hp _ (.inr (.inr (.inl rfl)))) (ih (by simp))

theorem pieces_read (u : Unp) (s : Stmt) (h : ¬ BadStmt u s) :
    List.Forall₂ (fun p e => ∀ r, Shut r → Rd .top (p ++ r) e r) (pieces u s) s.comps := by
  unfold pieces
  split
  case isTrue hc =>
    simp only [Bool.and_eq_true, Bool.not_eq_true', List.isEmpty_eq_false_iff] at hc
    rw [List.forall₂_map_left_iff]
    refine List.forall₂_same.mpr fun e he => strip_read u e fun hl => h ⟨hc.2, hc.1, e, ?_, hl⟩
    simpa [Stmt.comps] using he
  case isFalse =>
    unfold whole Stmt.comps
    refine List.rel_append ?_ ?_
    · rw [List.forall₂_map_left_iff]
      exact List.forall₂_same.mpr fun e _ => target_top u e
    · exact .cons (unparse_top u s.value) .nil

theorem piece_cases (u : Unp) (s : Stmt) : ∀ p ∈ pieces u s, Closed p ∨ scan 0 p = none := by
  intro p hp
  unfold pieces at hp
  split at hp
  · obtain ⟨e, _, rfl⟩ := List.mem_map.mp hp
    by_cases hl : Lost u e
    · rcases strip_lost u e hl with h | h
      · rw [h]; exact .inl .nil
      · exact .inr h
    · exact .inl (closed_of_top (strip_read u e hl))
  · unfold whole at hp
    rcases List.mem_append.mp hp with hp | hp
    · obtain ⟨e, _, rfl⟩ := List.mem_map.mp hp
      exact .inl (closed_of_top (target_top u e))
    · simp only [List.mem_singleton] at hp
      subst hp
      exact .inl (closed_of_top (unparse_top u s.value))

theorem pieces_ne (u : Unp) (s : Stmt) : pieces u s ≠ [] := by
  unfold pieces whole Stmt.comps
  split <;> simp

theorem bad_piece (u : Unp) (s : Stmt) (h : BadStmt u s) :
    ∃ p ∈ pieces u s, p = [] ∨ scan 0 p = none := by
  obtain ⟨h1, h2, e, he, hl⟩ := h
  refine ⟨strip e (unparse u 4 e), ?_, strip_lost u e hl⟩
  unfold pieces
  rw [if_pos (by simp [h1, h2])]
  refine List.mem_map.mpr ⟨e, ?_, rfl⟩
  simpa [Stmt.comps] using he

theorem join_eq_nl {ps : List (List Tok)} (h : ∀ p ∈ ps, Closed p) :
    Tok.nl ∉ [Tok.eq].intercalate ps := (join_level h).nl

theorem split_line {ps : List (List Tok)} (h : ps ≠ []) (hc : ∀ p ∈ ps, Closed p) :
    ([Tok.eq].intercalate ps).splitOn Tok.eq = ps :=
  List.splitOn_intercalate _ (fun l hl => (hc l hl).eq) h

/-- A text falls into lines, and a line into the parts between `=`, in one way only. -/
theorem split_lines {ls ms : List (List (List Tok))} (hl : ls ≠ []) (hm : ms ≠ [])
    (h1 : ∀ ps ∈ ls, ps ≠ [] ∧ ∀ p ∈ ps, Closed p) (h2 : ∀ ps ∈ ms, ps ≠ [] ∧ ∀ p ∈ ps, Closed p)
    (h : [Tok.nl].intercalate (ls.map ([Tok.eq].intercalate ·))
      = [Tok.nl].intercalate (ms.map ([Tok.eq].intercalate ·))) : ls = ms := by
  have hmap : ∀ ks : List (List (List Tok)), ks ≠ [] →
      (∀ ps ∈ ks, ps ≠ [] ∧ ∀ p ∈ ps, Closed p) →
      (([Tok.nl].intercalate (ks.map ([Tok.eq].intercalate ·))).splitOn Tok.nl).map
        (List.splitOn Tok.eq) = ks := by
    intro ks hk hc
    rw [List.splitOn_intercalate _ ?_ (by simpa using hk), List.map_map]
    · rw [List.map_congr_left (g := id)]
      · simp
      · intro ps hps
        exact split_line (hc ps hps).1 (hc ps hps).2
    · intro l hl
      obtain ⟨ps, hps, rfl⟩ := List.mem_map.mp hl
      exact join_eq_nl (hc ps hps).2
  rw [← hmap ls hl h1, h, hmap ms hm h2]

/-- One reading at most. -/
theorem reading_unique (ts : List Tok) (p p' : List (List Expr)) (h : Reads ts p)
    (h' : Reads ts p') : p = p' := by
  obtain ⟨ts₁, h1, h2⟩ := h
  obtain ⟨ts₂, h3, h4⟩ := h'
  rw [h1] at h3
  injection h3 with h3
  subst h3
  have hne : ∀ q, RdProg [] q → False := by
    intro q hq
    obtain ⟨ls, hls, h0, hall⟩ := rdProg_pieces hq
    have := split_lines (ls := ls) (ms := [[[]]]) hls (by simp)
      (fun ps hps => ⟨(hall ps hps).1, fun p hp => ((hall ps hps).2 p hp).1⟩)
      (by simp [Closed.nil]) (by rw [← h0]; rfl)
    subst this
    exact ((hall [[]] (by simp)).2 [] (by simp)).2 rfl
  rcases h2 with ⟨rfl, rfl⟩ | h2
  · rcases h4 with ⟨_, rfl⟩ | h4
    · rfl
    · exact (hne _ h4).elim
  · rcases h4 with ⟨rfl, _⟩ | h4
    · exact (hne _ h2).elim
    · exact rdProg_det h2 _ h4

/-- Code without a statement of which a bracket or all of a value is lost is read back as the
statements it came from. -/
theorem code_reads_back_partial (u : Unp) (ss : List Stmt) (h : ∀ s ∈ ss, ¬ BadStmt u s) :
    Reads (codeText u ss) (ss.map Stmt.comps) := by
  refine ⟨codeText u ss, logical_lines ?_, ?_⟩
  · intro l hl
    obtain ⟨s, hs, rfl⟩ := List.mem_map.mp hl
    refine join_level fun p hp => ?_
    have := pieces_read u s (h s hs)
    obtain ⟨e, _, he⟩ := forall₂_mem this p hp
    exact closed_of_top he
  · induction ss with
    | nil => exact .inl ⟨rfl, rfl⟩
    | cons s ss ih =>
      right
      have hs := pieces_read u s (h s (by simp))
      have ih := ih fun x hx => h x (by simp [hx])
      have hne : s.comps ≠ [] := by simp [Stmt.comps]
      cases ss with
      | nil =>
        have := stmt_read _ _ [] (.inl rfl) hne hs
        simp only [codeText, List.map_cons, List.map_nil, List.intercalate_singleton]
        exact .last (by simpa [text] using this)
      | cons s' ss =>
        rcases ih with ⟨_, h0⟩ | ih
        · simp at h0
        · have := stmt_read _ _ (.nl :: codeText u (s' :: ss)) (.inr rfl) hne hs
          unfold codeText at *
          rw [List.map_cons, List.intercalate_cons_of_ne_nil (by simp)]
          refine .more (r := [Tok.nl].intercalate ((s' :: ss).map (text u))) ?_ ih
          simpa [text] using this

/-- `x = (a + b) * c` and `y = (x, 1)` are read back; the second without its brackets. -/
example : Reads (codeText .builtin
      [⟨[.name 0], .bin .mul (.bin .add (.name 1) (.name 2)) (.name 3), true⟩,
       ⟨[.name 4], .tup (.cons (.name 0) (.cons (.num 1) .nil)), true⟩])
    [[.name 0, .bin .mul (.bin .add (.name 1) (.name 2)) (.name 3)],
     [.name 4, .tup (.cons (.name 0) (.cons (.num 1) .nil))]] :=
  code_reads_back_partial .builtin _ (by
    intro s hs hb
    simp only [List.mem_cons, List.not_mem_nil, or_false] at hs
    rcases hs with rfl | rfl <;>
    · obtain ⟨_, _, e, he, hl⟩ := hb
      simp only [List.mem_singleton] at he
      rcases he with rfl | rfl <;> simp [Lost, Spoilt, Opens, Closes] at hl)
example : text .builtin ⟨[.name 4], .tup (.cons (.name 0) (.cons (.num 1) .nil)), true⟩
    = [.name 4, .eq, .name 0, .comma, .num 1] := rfl

/-- A text with its one reading. -/
example : Reads [.name 0, .eq, .name 1] [[.name 0, .name 1]] :=
  code_reads_back_partial .builtin [⟨[.name 0], .name 1, true⟩] (by
    intro s hs hb
    simp only [List.mem_singleton] at hs
    subst hs
    obtain ⟨_, _, e, he, hl⟩ := hb
    simp only [List.mem_singleton] at he
    rcases he with rfl | rfl <;> exact hl)

/-- Code with such a statement is not a program at all, whatever the other statements are. -/
theorem bad_no_program (u : Unp) (ss : List Stmt) (s : Stmt) (hs : s ∈ ss) (hb : BadStmt u s)
    (prog : List (List Expr)) : ¬ Reads (codeText u ss) prog := by
  rintro ⟨ts, hlog, hr⟩
  have hcases : ∀ l ∈ ss.map (text u), Level l ∨ scan 0 l = none := by
    intro l hl
    obtain ⟨s', _, rfl⟩ := List.mem_map.mp hl
    by_cases hc : ∀ p ∈ pieces u s', Closed p
    · exact .inl (join_level hc)
    · right
      refine join_broken (piece_cases u s') ?_
      simp only [not_forall] at hc
      obtain ⟨p, hp, hn⟩ := hc
      exact ⟨p, hp, (piece_cases u s' p hp).resolve_left hn⟩
  by_cases hbr : ∃ l ∈ ss.map (text u), scan 0 l = none
  · unfold codeText at hlog
    rw [logical_lines_broken hcases hbr] at hlog
    simp at hlog
  · have hnb : ∀ s' ∈ ss, ∀ p ∈ pieces u s', Closed p := by
      intro s' hs' p hp
      refine (piece_cases u s' p hp).resolve_right fun hn => hbr ⟨text u s', ?_, ?_⟩
      · exact List.mem_map.mpr ⟨s', hs', rfl⟩
      · exact join_broken (piece_cases u s') ⟨p, hp, hn⟩
    have hlev : ∀ l ∈ ss.map (text u), Level l := fun l hl =>
      (hcases l hl).resolve_right fun hn => hbr ⟨l, hl, hn⟩
    unfold codeText at hlog
    rw [logical_lines hlev] at hlog
    injection hlog with hlog
    subst hlog
    have hne : ss ≠ [] := by rintro rfl; simp at hs
    have hmap : ss.map (text u) = (ss.map (pieces u)).map ([Tok.eq].intercalate ·) := by
      rw [List.map_map]; rfl
    have hall : ∀ ps ∈ ss.map (pieces u), ps ≠ [] ∧ ∀ p ∈ ps, Closed p := by
      intro ps hps
      obtain ⟨s', hs', rfl⟩ := List.mem_map.mp hps
      exact ⟨pieces_ne u s', hnb s' hs'⟩
    obtain ⟨p, hp, hpb⟩ := bad_piece u s hb
    have hp0 : p = [] := by
      rcases hpb with h | h
      · exact h
      · rw [(hnb s hs p hp).scan] at h; simp at h
    rw [hmap] at hr
    rcases hr with ⟨h0, _⟩ | hr
    · have := split_lines (ls := ss.map (pieces u)) (ms := [[[]]]) (by simpa using hne) (by simp)
        hall (by simp [Closed.nil]) (by rw [h0]; rfl)
      have hmem : pieces u s ∈ ss.map (pieces u) := List.mem_map.mpr ⟨s, hs, rfl⟩
      rw [this] at hmem
      simp only [List.mem_singleton] at hmem
      obtain ⟨_, h2, _⟩ := hb
      have hlen := congrArg List.length hmem
      unfold pieces whole Stmt.comps at hlen
      split at hlen <;> simp [h2] at hlen
    · obtain ⟨ls, hls, h0, hpl⟩ := rdProg_pieces hr
      have := split_lines (ls := ss.map (pieces u)) (ms := ls) (by simpa using hne) hls hall
        (fun ps hps => ⟨(hpl ps hps).1, fun p hp => ((hpl ps hps).2 p hp).1⟩) h0
      have hmem : pieces u s ∈ ls := this ▸ List.mem_map.mpr ⟨s, hs, rfl⟩
      exact ((hpl _ hmem).2 p hp).2 hp0

/-- `x = (a + b) * (c + d)` becomes `x = a + b) * (c + d`. -/
example : text .builtin ⟨[.name 0], .bin .mul (.bin .add (.name 1) (.name 2))
      (.bin .add (.name 3) (.name 4)), true⟩
    = [.name 0, .eq, .name 1, .op .add, .name 2, .rp, .op .mul, .lp, .name 3, .op .add,
      .name 4] := rfl
example : BadStmt .builtin ⟨[.name 0], .bin .mul (.bin .add (.name 1) (.name 2))
      (.bin .add (.name 3) (.name 4)), true⟩ :=
  ⟨rfl, by simp, _, .inr rfl, by simp [Lost, Spoilt, Opens, Closes, precL, precR, prec]⟩

/-- Exactly when the code is read back as the statements it came from. -/
theorem code_reads_back_iff (u : Unp) (ss : List Stmt) :
    Reads (codeText u ss) (ss.map Stmt.comps) ↔ ∀ s ∈ ss, ¬ BadStmt u s :=
  ⟨fun h s hs hb => bad_no_program u ss s hs hb _ h, code_reads_back_partial u ss⟩

/-- Statements over several lines are always read back. -/
theorem several_lines_read_back (u : Unp) (ss : List Stmt) (h : ∀ s ∈ ss, s.oneLine = false) :
    Reads (codeText u ss) (ss.map Stmt.comps) :=
  code_reads_back_partial u ss fun s hs hb => by
    have := h s hs
    rw [hb.1] at this
    simp at this

/-- The same value over two lines keeps its brackets. -/
example : text .builtin ⟨[.name 0], .bin .mul (.bin .add (.name 1) (.name 2))
      (.bin .add (.name 3) (.name 4)), false⟩
    = [.name 0, .eq, .lp, .name 1, .op .add, .name 2, .rp, .op .mul, .lp, .name 3, .op .add,
      .name 4, .rp] := rfl

/-- With the package `astunparse`, for which the brackets are taken off, only the empty tuple is
lost. -/
theorem package_reads_back (ss : List Stmt)
    (h : ∀ s ∈ ss, ∀ e, e ∈ s.targets ∨ e = s.value → e ≠ .tup .nil) :
    Reads (codeText .package ss) (ss.map Stmt.comps) :=
  code_reads_back_partial .package ss fun s hs hb => by
    obtain ⟨_, _, e, he, hl⟩ := hb
    exact h s hs e he hl

/-- There the brackets taken off are those around the whole. -/
example : text .package ⟨[.name 0], .bin .mul (.bin .add (.name 1) (.name 2))
      (.bin .add (.name 3) (.name 4)), true⟩
    = [.name 0, .eq, .lp, .name 1, .op .add, .name 2, .rp, .op .mul, .lp, .name 3, .op .add,
      .name 4, .rp] := rfl

/-- Shown in Jupyter, the code raises exactly when it has a statement whose text is lost;
otherwise what is shown is the same program. -/
theorem widget_raises_iff (u : Unp) (black : List Tok → Option (List Tok)) (hb : Formatter black)
    (ss : List Stmt) :
    ((∃ s ∈ ss, BadStmt u s) → widget black (codeText u ss) = .raises) ∧
    ((∀ s ∈ ss, ¬ BadStmt u s) →
      ∃ ts, widget black (codeText u ss) = .shows ts ∧ Reads ts (ss.map Stmt.comps)) := by
  constructor
  · rintro ⟨s, hs, hbad⟩
    have hn : black (codeText u ss) = none :=
      (hb.raises _).mpr fun ⟨prog, h⟩ => bad_no_program u ss s hs hbad prog h
    unfold widget formatted
    rw [hn]
    dsimp only
    rw [hn]
  · intro h
    have hr := code_reads_back_partial u ss h
    cases h1 : black (codeText u ss) with
    | none => exact (((hb.raises _).mp h1) ⟨_, hr⟩).elim
    | some ts =>
      have hr1 := hb.keeps _ _ _ h1 hr
      cases h2 : black ts with
      | none => exact (((hb.raises _).mp h2) ⟨_, hr1⟩).elim
      | some ts' =>
        refine ⟨ts', ?_, hb.keeps _ _ _ h2 hr1⟩
        unfold widget formatted
        rw [h1]
        dsimp only
        rw [h2]

/-- A formatter as supposed: it hands back the programs unchanged. -/
example : ∃ black, Formatter black := by
  classical
  refine ⟨fun ts => if ∃ prog, Reads ts prog then some ts else none, fun ts => ?_,
    fun ts ts' prog h hr => ?_⟩
  · by_cases h : ∃ prog, Reads ts prog
    · simp [h]
    · simp [h]
  · split at h
    · cases h; exact hr
    · cases h

end Verif.Text
