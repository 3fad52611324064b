import Verif.GramScan0
import Verif.PropsArith
/-!
# Exact runs of backticks and arithmetic, without positions
-/
namespace Conch.Gram
open Conch

section
variable {B : Builder}

theorem Run.backtick {R : Rec AIter B} {u r rest : List Token} {b g b'}
    (h : Spec.Body .Backtick (anywhere u)) (hg : Run (R.group .default) (unescape u) b g rest b') :
    Run (backtickedRaw R) (.Backtick :: u ++ .Backtick :: r) b (.CommandSubst g) r b' := by
  unfold backtickedRaw
  rw [List.cons_append]
  refine .getPos fun p => .eat ?_
  intro L e hL
  replace hL := toks_append hL; obtain ⟨X, L, rfl, rfl, hL⟩ := hL
  obtain ⟨q, L, rfl, rfl⟩ := toks_cons hL
  obtain ⟨sub, h1, h2⟩ := subIter_toks (same_body (same_anywhere X) h) p q L e
  have hw := (Run.withIterRestore (l := toks L) (h2.trans (unescape_eq X)) hg).bind
    (f := fun g => Pure.pure (SimpleWordKind.CommandSubst g)) .pure
  obtain ⟨R', e', hR, hw⟩ := hw L e rfl
  refine ⟨R', e', hR, ?_⟩
  rw [← hw]
  apply (bind_ok (a := SubIter.ok sub) (s' := st L e b) _).trans rfl
  show ((Res.ok (tokenIterFromBackticked (⟨X ++ (q, .Backtick) :: L, e⟩ : AIter) p).1 :
    Res B.Error (SubIter AIter)), PSt.mk
      (tokenIterFromBackticked (⟨X ++ (q, .Backtick) :: L, e⟩ : AIter) p).2 b) = _
  rw [h1]

theorem Run.arith {l u l1 r : List Token} {a : DefaultArithmetic} {b : B.State} (hl : l = u ++ l1)
    (h : Spec.Expr .munch .seq (anywhere u) a) (hs : Skip l1 (.ParenClose :: r)) :
    Run arithmeticSubstitution l b a (.ParenClose :: r) b := by
  subst hl
  intro L e hL
  obtain ⟨U, L, rfl, rfl, rfl⟩ := toks_append hL
  obtain ⟨X, R, rfl, hR, h1, h2⟩ := lift_skip hs
  refine ⟨R, e, hR, ?_⟩
  rw [← List.append_assoc]
  refine arithmeticSubstitution_eq (same_expr h _ (same_anywhere U)) h1 h2 (follow_of_not_op ?_ _ _)
  rintro p t r' rfl
  cases hR
  decide

end
end Conch.Gram
