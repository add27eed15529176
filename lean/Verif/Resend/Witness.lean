import Verif.Resend.Props

/-!
# Examples: messages after the channel was closed -/

namespace Verif.Resend
open Spec

/-- The channel is opened and answered: the active cell is told (1) and a schedule asked for (2); then a message about the text (3). -/
def quiet : List Event := [.deliver, .send 3, .deliver, .deliver, .answer 1 2, .deliver]

example : (run quiet).got = [1, 2, 3] ∧ (run quiet).wire = [] := by decide

example : (run quiet).got = sends [.deliver] ++ 1 :: 2 :: sends [.deliver, .send 3, .deliver, .deliver] :=
  unbroken_in_order_partial [.deliver] [.deliver, .send 3, .deliver, .deliver] 1 2 (by simp [Plain]) (by simp [Plain]) (by simp) (by decide)

/-- The kernel is restarted. The user goes to cell 4 (message 4) and then to cell 5 (message 5) before the new kernel has answered; on the answer the client tells that cell 5 is
active once more (message 6) and asks for a schedule (message 7). -/
def restarted : List Event := [.deliver, .deliver, .deliver, .answer 6 7, .deliver, .deliver, .send 5, .send 4, .lost] ++ quiet

/-- The kernel is told about cell 4 last, before the schedule is computed. -/
example : (run restarted).got = [5, 6, 4, 7] ∧ (run restarted).wire = [] := by decide

example : (run restarted).got ≠ 4 :: ([5] ++ 6 :: 7 :: []) :=
  never_in_order quiet [.deliver, .deliver, .send 5] [.deliver, .deliver, .deliver] 4 6 7 (by decide) (by simp [Plain]) (by simp [Plain]) (by simp) (by decide) (by decide)

/-- The order in which messages are to be sent is the order in which they come. -/
def InOrderClaim : Prop :=
  ∀ h ms ks p a r, Event.disconnect ∉ h → Plain ms → Plain ks → .deliver ∈ ms → (run (ks ++ .answer a r :: (ms ++ .send p :: .lost :: h))).wire = [] →
    (run (ks ++ .answer a r :: (ms ++ .send p :: .lost :: h))).got = p :: (sends ms ++ a :: r :: sends ks)

theorem in_order_claim_false : ¬ InOrderClaim := fun hc =>
  never_in_order quiet [.deliver, .deliver, .send 5] [.deliver, .deliver, .deliver] 4 6 7 (by decide) (by simp [Plain]) (by simp [Plain]) (by simp) (by decide) (by decide)
    (hc quiet [.deliver, .deliver, .send 5] [.deliver, .deliver, .deliver] 4 6 7 (by decide) (by simp [Plain]) (by simp [Plain]) (by simp) (by decide))

/-- The kernel is restarted twice; what was to be sent in between (4) is gone, what was to be sent afterwards comes. -/
def twice : List Event := [.deliver, .deliver, .deliver, .answer 6 7, .deliver, .send 5, .lost, .send 4, .lost] ++ quiet

example : (run twice).got = [6, 5, 7] := by decide

example : 4 ∉ (run twice).got :=
  (kept_is_forgotten quiet [] [.deliver, .deliver, .deliver, .answer 6 7, .deliver, .send 5] 4 (by decide) (by simp [Plain]) (by simp [sends]) (by simp [Unsent])).2

example : List.count 5 (run restarted).got = 1 ∧ List.count 5 (due restarted) = 1 := by decide

example : 9 ∉ (run ([.deliver, .send 9] ++ .disconnect :: quiet)).got := nothing_after_disconnect quiet [.deliver, .send 9] 9 (by decide)

end Verif.Resend
