import Verif.GramLen
import Verif.Same
import Verif.ScanDq
/-!
# Exact runs of the scans, without positions
-/
namespace Conch.Gram
open Conch

theorem same_anywhere (L : List Spec.PTok) : Same L (anywhere (toks L)) := by
  unfold Same anywhere
  simp

theorem Same.symm {u v : List Spec.PTok} (h : Same u v) : Same v u := Eq.symm h

theorem same_body {c : Token} {u v : List Spec.PTok} (h : Same u v) (hb : Spec.Body c v) :
    Spec.Body c u := by
  induction hb generalizing u with
  | nil => rw [h.nil]; exact .nil
  | @quoted t xs h1 h2 ih =>
    obtain ⟨q, t⟩ := t
    replace h := h.cons; obtain ⟨p, y, rfl, h⟩ := h
    exact .quoted h1 (ih h)
  | @plain c t xs h1 h2 h3 _ ih =>
    obtain ⟨q, t⟩ := t
    replace h := h.cons; obtain ⟨p, y, rfl, h⟩ := h
    exact .plain h1 h2 h3 (ih h)
  | @escape c p t xs h1 _ ih =>
    obtain ⟨q, t⟩ := t
    replace h := h.cons; obtain ⟨p, y, rfl, h⟩ := h
    replace h := h.cons; obtain ⟨p, y, rfl, h⟩ := h
    exact .escape h1 (ih h)
  | @nested c c' o xs q ys h1 h2 h3 _ _ ih1 ih2 =>
    obtain ⟨q, t⟩ := o
    replace h := h.cons; obtain ⟨p, y, rfl, h⟩ := h
    replace h := h.append; obtain ⟨x, y, rfl, hx, h⟩ := h
    replace h := h.cons; obtain ⟨p, y, rfl, h⟩ := h
    exact .nested h1 h2 h3 (ih1 hx) (ih2 h)
  | @brace c p q r xs ys h1 _ _ ih1 ih2 =>
    replace h := h.cons; obtain ⟨p, y, rfl, h⟩ := h
    replace h := h.cons; obtain ⟨p, y, rfl, h⟩ := h
    replace h := h.append; obtain ⟨x, y, rfl, hx, h⟩ := h
    replace h := h.cons; obtain ⟨p, y, rfl, h⟩ := h
    exact .brace h1 (ih1 hx) (ih2 h)
  | @dollar c p xs h1 h2 _ ih =>
    replace h := h.cons; obtain ⟨p, y, rfl, h⟩ := h
    refine .dollar h1 ?_ (ih h)
    rwa [← List.head?_map, h, List.head?_map]

theorem same_unit {u u' v v' : List Spec.PTok} (h : Same u v) (h' : Same u' v')
    (hb : Spec.TopUnit v v') : Spec.TopUnit u u' := by
  cases hb with
  | empty => rw [h.nil, h'.nil]; exact .empty
  | @plain t _ h1 =>
    obtain ⟨q, t⟩ := t
    replace h := h.cons; obtain ⟨p, y, rfl, h⟩ := h
    rw [h.nil]; exact .plain h1
  | @escape p t _ =>
    obtain ⟨q, t⟩ := t
    replace h := h.cons; obtain ⟨p, y, rfl, h⟩ := h
    replace h := h.cons; obtain ⟨p, y, rfl, h⟩ := h
    rw [h.nil]; exact .escape
  | @lastBackslash p =>
    replace h := h.cons; obtain ⟨p, y, rfl, h⟩ := h
    rw [h.nil, h'.nil]; exact .lastBackslash
  | @nested c o xs q rest h1 h2 =>
    obtain ⟨q, t⟩ := o
    replace h := h.cons; obtain ⟨p, y, rfl, h⟩ := h
    replace h := h.append; obtain ⟨x, y, rfl, hx, h⟩ := h
    replace h := h.cons; obtain ⟨p, y, rfl, h⟩ := h
    rw [h.nil]; exact .nested h1 (same_body hx h2)
  | @brace p q r xs rest h1 =>
    replace h := h.cons; obtain ⟨p, y, rfl, h⟩ := h
    replace h := h.cons; obtain ⟨p, y, rfl, h⟩ := h
    replace h := h.append; obtain ⟨x, y, rfl, hx, h⟩ := h
    replace h := h.cons; obtain ⟨p, y, rfl, h⟩ := h
    rw [h.nil]; exact .brace (same_body hx h1)
  | @dollarParen p q r xs rest h1 =>
    replace h := h.cons; obtain ⟨p, y, rfl, h⟩ := h
    replace h := h.cons; obtain ⟨p, y, rfl, h⟩ := h
    replace h := h.append; obtain ⟨x, y, rfl, hx, h⟩ := h
    replace h := h.cons; obtain ⟨p, y, rfl, h⟩ := h
    rw [h.nil]; exact .dollarParen (same_body hx h1)
  | @dollar p rest h1 h2 =>
    replace h := h.cons; obtain ⟨p, y, rfl, h⟩ := h
    rw [h.nil]
    refine .dollar ?_ ?_
    · rwa [← List.head?_map, h', List.head?_map]
    · rwa [← List.head?_map, h', List.head?_map]

theorem same_unescape {u v : List Spec.PTok} (h : Same u v) :
    Same (Spec.unescape u) (Spec.unescape v) := by
  induction v using Spec.unescape.induct generalizing u with
  | case1 => rw [h.nil]; rfl
  | case2 x =>
    obtain ⟨q, t⟩ := x
    replace h := h.cons; obtain ⟨p, y, rfl, h⟩ := h
    rw [h.nil]; rfl
  | case3 x y r h1 h2 ih =>
    obtain ⟨q, t⟩ := x; obtain ⟨q', t'⟩ := y
    replace h := h.cons; obtain ⟨p, y, rfl, h⟩ := h
    replace h := h.cons; obtain ⟨p', y, rfl, h⟩ := h
    have := ih h
    simp only at h1 h2
    simp only [Spec.unescape, h1, h2, if_true, Same, List.map_cons] at this ⊢
    rw [this]
  | case4 x y r h1 h2 ih =>
    obtain ⟨q, t⟩ := x; obtain ⟨q', t'⟩ := y
    replace h := h.cons; obtain ⟨p, y, rfl, h⟩ := h
    replace h := h.cons; obtain ⟨p', y, rfl, h⟩ := h
    have := ih h
    simp only at h1 h2
    simp only [Spec.unescape, h1, h2, if_true, if_false, Same, List.map_cons] at this ⊢
    rw [this]
  | case5 x y r h1 ih =>
    obtain ⟨q, t⟩ := x; obtain ⟨q', t'⟩ := y
    replace h := h.cons; obtain ⟨p, y, rfl, h⟩ := h
    have := ih h
    replace h := h.cons; obtain ⟨p', y, rfl, h⟩ := h
    simp only at h1
    simp only [Spec.unescape, h1, if_false, Same, List.map_cons] at this ⊢
    rw [this]

theorem unescape_eq (L : List Spec.PTok) : toks (Spec.unescape L) = unescape (toks L) :=
  same_unescape (same_anywhere L)

section
variable {B : Builder}

theorem Run.scan {f : AIter → Collected × AIter} {l ts r : List Token} {b : B.State}
    (h : ∀ L e, toks L = l → ∃ R e', toks R = r ∧ f ⟨L, e⟩ = (.ok ts, ⟨R, e'⟩)) :
    Run (scan f) l b ts r b := by
  intro L e hL
  obtain ⟨R, e', hR, h⟩ := h L e hL
  refine ⟨R, e', hR, ?_⟩
  unfold Conch.scan
  simp only
  rw [h]
  rfl

theorem squote_body {u : List Spec.PTok} (h : ∀ t ∈ u, t.2 ≠ .SingleQuote) : Spec.Body .SingleQuote u := by
  induction u with
  | nil => exact .nil
  | cons x u ih => exact .quoted (h x (by simp)) (ih fun t ht => h t (by simp [ht]))

theorem Run.singleQuoted {u r : List Token} {b : B.State} (p : SourcePos)
    (h : ∀ t ∈ u, t ≠ .SingleQuote) :
    Run (Conch.scan fun it => takeSingleQuoted it p) (u ++ .SingleQuote :: r) b u r b := by
  refine .scan fun L e hL => ?_
  replace hL := toks_append hL; obtain ⟨X, L, rfl, rfl, hL⟩ := hL
  obtain ⟨q, L, rfl, rfl⟩ := toks_cons hL
  exact ⟨L, e, rfl, takeRegion_closed (squote_body (lift_mem h)) (.inl rfl) p q L e⟩

theorem Run.balanced {u r : List Token} {b : B.State} (h : Spec.TopUnit (anywhere u) (anywhere r)) :
    Run (Conch.scan takeBalanced) (u ++ r) b u r b := by
  refine .scan fun L e hL => ?_
  obtain ⟨X, R, rfl, rfl, rfl⟩ := toks_append hL
  exact ⟨R, e, rfl, takeBalanced_unit (same_unit (same_anywhere X) (same_anywhere R) h) e⟩

theorem dqSpecial_iff (t : Token) : t.dqSpecial = true ↔ t ∈ quotable := by
  cases t <;> simp [Token.dqSpecial, quotable]

theorem dqUnquote_eq (l : List Token) : Spec.dqUnquote l = dqUnquote l := by
  induction l using dqUnquote.induct with
  | case1 => rfl
  | case2 => rfl
  | case3 y r h2 ih => simp [Spec.dqUnquote, dqUnquote, h2, (dqSpecial_iff y).2 h2, ih]
  | case4 y r h2 ih =>
    have : ¬ y.dqSpecial = true := fun h => h2 ((dqSpecial_iff y).1 h)
    simp [Spec.dqUnquote, dqUnquote, h2, this, ih]
  | case5 x y r h1 ih => simp [Spec.dqUnquote, dqUnquote, h1, ih]

theorem Run.dqDelim {u r : List Token} {b : B.State} (p : SourcePos)
    (h : Spec.Body .DoubleQuote (anywhere u)) :
    Run (Conch.scan fun it => takeDqDelim it p) (u ++ .DoubleQuote :: r) b (dqUnquote u) r b := by
  refine .scan fun L e hL => ?_
  replace hL := toks_append hL; obtain ⟨X, L, rfl, rfl, hL⟩ := hL
  obtain ⟨q, L, rfl, rfl⟩ := toks_cons hL
  refine ⟨L, e, rfl, ?_⟩
  rw [← dqUnquote_eq]
  exact takeDqDelim_closed (same_body (same_anywhere X) h) p q L e

theorem Run.backtickRemoved {u r : List Token} {b : B.State} (p : SourcePos)
    (h : Spec.Body .Backtick (anywhere u)) :
    Run (Conch.scan fun it => takeBacktickedRemoved it p) (u ++ .Backtick :: r) b (unescape u) r b := by
  refine .scan fun L e hL => ?_
  replace hL := toks_append hL; obtain ⟨X, L, rfl, rfl, hL⟩ := hL
  obtain ⟨q, L, rfl, rfl⟩ := toks_cons hL
  refine ⟨L, e, rfl, ?_⟩
  rw [← unescape_eq]
  exact takeRemoved_closed (same_body (same_anywhere X) h) p q L e

/-- A computation on another stream of tokens. -/
theorem Run.withIter {α : Type} {m : P AIter B α} {l l' r : List Token} {b a b'} {sub : AIter}
    (hs : sub.toks = l') (h : Run m l' b a r b') : Run (withIter sub m) l b a l b' := by
  intro L e hL
  obtain ⟨R, e', -, h⟩ := h sub.rest sub.endPos hs
  refine ⟨L, e, hL, ?_⟩
  unfold Conch.withIter
  simp only [h]

theorem Run.withIterRestore {α : Type} {m : P AIter B α} {l l' r : List Token} {b a b'} {sub : AIter}
    (hs : sub.toks = l') (h : Run m l' b a r b') : Run (withIterRestore sub m) l b a l b' := by
  intro L e hL
  obtain ⟨R, e', -, h⟩ := h sub.rest sub.endPos hs
  refine ⟨L, e, hL, ?_⟩
  unfold Conch.withIterRestore
  simp only [h]

end
end Conch.Gram
