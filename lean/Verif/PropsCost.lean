import Verif.CostCmd
/-!
# Property C46: how often the builder is called
-/
namespace Conch
open Spec

/-- The length of the log grows by 1 with every call. -/
def Logged.meter (B : Builder) : Meter (Logged B) where
  μ s := s.1.length
  step c s := by simp

variable {B : Builder}

/-- The number of calls the builder has received. -/
def Spec.callCount (s : PSt CIter (Logged B)) : Nat := s.b.1.length

theorem calls_within (m : Method) (s : PSt CIter (Logged B)) :
    (∀ a, (m.run s).1 = .ok a →
      callCount (m.run s).2 + 5 * (m.run s).2.rest.length ≤ callCount s + 5 * s.rest.length) ∧
    callCount (m.run s).2 ≤ callCount s + 5 * s.rest.length := by
  have h := Cost.cn_method (M := Logged.meter B) (c := 0) m
  unfold Cost.Cn at h
  have h := h s.abs
  rw [m.run_abs s] at h
  exact ⟨fun a e => h.ok a e, h.any⟩

/-- **C46.** Every public method calls the builder at most five times for each token it consumes. -/
theorem C46_calls_per_token (m : Method) (s : PSt CIter (Logged B)) (a) (h : (m.run s).1 = .ok a) :
    callCount (m.run s).2 - callCount s ≤ 5 * (s.rest.length - (m.run s).2.rest.length) := by
  have := (calls_within m s).1 a h
  omega

/-- **C46.** However a call of a public method ends, with an error included, it has called the builder at
most five times for each token that was left. -/
theorem C46_calls_bounded (m : Method) (s : PSt CIter (Logged B)) :
    callCount (m.run s).2 - callCount s ≤ 5 * s.rest.length := by
  have := (calls_within m s).2
  omega

theorem calls_history {s s' : PSt CIter (Logged B)} (h : Calls s s') :
    callCount s' + 5 * s'.rest.length ≤ callCount s + 5 * s.rest.length := by
  induction h with
  | nil => exact Nat.le_refl _
  | @cons s s1 s' m a e _ ih =>
    have := (calls_within m s).1 a (by rw [e])
    rw [e] at this
    exact Nat.le_trans ih this

/-- **C46.** Whatever methods are called on a parser of `n` tokens, one after the other, and however the
last call ends, the builder receives at most `5 * n` calls in total. -/
theorem C46_whole_history (ts : List Token) (b : B.State) (s : PSt CIter (Logged B))
    (h : Calls (parserOn ts (([], b) : (Logged B).State)) s) (m : Method) :
    callCount (m.run s).2 ≤ 5 * ts.length := by
  have h1 := calls_history h
  have h2 := (calls_within m s).2
  have h3 := congrArg List.length (parserOn_rest (B := Logged B) ts ([], b))
  rw [List.length_map] at h3
  rw [h3] at h1
  have h0 : callCount (parserOn ts (([], b) : (Logged B).State)) = 0 := rfl
  omega

/-- **C46.** Parsing a text, in whatever way, takes at most five builder calls per character. -/
theorem C46_calls_per_character (cc : CharClass) (src : Str) (b : B.State) (s : PSt CIter (Logged B))
    (h : Calls (parserOn (lex cc src) (([], b) : (Logged B).State)) s) (m : Method) :
    callCount (m.run s).2 ≤ 5 * src.length :=
  Nat.le_trans (C46_whole_history _ b s h m) (Nat.mul_le_mul_left 5 (C02_token_count cc src))

/-! ## The bound is met -/

/-- The calls of a method on a text. -/
def callsOn (m : Method) (src : String) : Nat :=
  callCount (m.run (parserOn (B := Logged EmptyBuilder) (lex ascii src.toList) ([], ()))).2

/-- Five calls for one token: `word`, `simple_command`, `pipeline`, `and_or_list`,
`complete_command`. -/
theorem C46_five_for_one_token :
    (lex ascii "a".toList).length = 1 ∧ callsOn .completeCommand "a" = 5 := by decide +kernel

/-- Nested commands, and a command group whose `}` is missing: the calls made before the error count. -/
theorem C46_witness_nested :
    callsOn .completeCommand "(a)" = 10 ∧ callsOn .completeCommand "x=$(a;b) >f c" = 18 ∧
    callsOn .completeCommand "{ a; b" = 10 := by decide +kernel

/-- The hypothesis of `C46_whole_history` after two commands. -/
theorem C46_history_witness : ∃ s, Calls (parserOn (B := Logged EmptyBuilder)
    (lex ascii "a\n(a)".toList) ([], ())) s ∧ callCount s = 15 := by
  let s0 := parserOn (B := Logged EmptyBuilder) (lex ascii "a\n(a)".toList) ([], ())
  let s1 := (Method.completeCommand.run s0).2
  have h0 : (match (Method.completeCommand.run s0).1 with | .ok _ => true | _ => false) = true := by decide +kernel
  have h1 : (match (Method.completeCommand.run s1).1 with | .ok _ => true | _ => false) = true := by decide +kernel
  have key : ∀ s : PSt CIter (Logged EmptyBuilder),
      (match (Method.completeCommand.run s).1 with | .ok _ => true | _ => false) = true →
      ∃ a, Method.completeCommand.run s = (.ok a, (Method.completeCommand.run s).2) := by
    intro s h
    generalize Method.completeCommand.run s = z at h
    obtain ⟨r, s'⟩ := z
    cases r with
    | ok a => exact ⟨a, rfl⟩
    | _ => cases h
  obtain ⟨a0, e0⟩ := key s0 h0
  obtain ⟨a1, e1⟩ := key s1 h1
  exact ⟨_, .cons _ e0 (.cons _ e1 .nil), by decide +kernel⟩

end Conch
