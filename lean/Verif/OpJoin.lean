import Verif.OpRead
import Verif.CmRead
import Verif.PropsNl
import Verif.PropsCompose
/-!
# Commands before and after an operator: reading
-/
namespace Conch
open Spec Gram

namespace Gram
variable {B : Builder} {b b' : B.State} {l r X : List Token} {k : Token} {w : Str}

/-! ## What a command starts and ends with -/

theorem wordOf_none {C : Type} {ws : List (WordKind C)} (h : wordOf ws = none) : ws = [] := by
  match ws, h with
  | [], _ => rfl
  | [_], h => cases h
  | _ :: _ :: _, h => cases h

/-- No word was read: what is left does not start with blanks. -/
theorem raw_none (h : Reads (B := B) (.rawWord none) b l none r b') : NoBlank r := by
  generalize e : (none : Option (ComplexWordKind B.Command)) = a at h
  cases h with
  | noWord h1 => exact h1.noBlank
  | someWord h1 h2 h3 =>
    obtain rfl := wordOf_none e.symm
    have := h1.noBlank
    cases h3 with
    | endWord => exact this
    | endEscaped => exact absurd rfl (this.2 _)
    | endBackslash => simp [NoBlank]

theorem redirect_none_nb (h : Reads (B := B) .redirect b l none r b') : NoBlank r := by
  cases h with
  | noRedirect h1 h2 => exact raw_none h1

theorem args_noBlank {a} (h : Reads (B := B) .args b l a r b') : NoBlank r := by
  have key : ∀ {n : NT} {b : B.State} {l a r b'}, Reads n b l a r b' → n = .args → NoBlank r := by
    intro n b l a r b' h
    induction h with
    | argsRedirect h1 h2 ih1 ih2 => intro hn; exact ih2 rfl
    | argsWord h1 h2 ih1 ih2 => intro hn; exact ih2 rfl
    | argsEnd h1 => intro hn; exact redirect_none_nb h1
    | _ => intro hn; cases hn
  exact key h rfl

theorem redirects_noBlank {a} (h : Reads (B := B) .redirects b l a r b') : NoBlank r := by
  have key : ∀ {n : NT} {b : B.State} {l a r b'}, Reads n b l a r b' → n = .redirects → NoBlank r := by
    intro n b l a r b' h
    induction h with
    | redirectsNil h1 h2 => intro hn; exact redirect_none_nb h2
    | redirectsCons h1 h2 h3 ih1 ih2 => intro hn; exact ih2 rfl
    | _ => intro hn; cases hn
  exact key h rfl

theorem compound_noBlank {kw a} (h : Reads (B := B) (.compound kw) b l a r b') : NoBlank r := by
  cases h with
  | compoundIf _ h2 => exact redirects_noBlank h2
  | compoundLoop _ _ h2 => exact redirects_noBlank h2
  | compoundFor _ h2 => exact redirects_noBlank h2
  | compoundCase _ h2 => exact redirects_noBlank h2
  | compoundBrace _ h2 => exact redirects_noBlank h2
  | compoundSubshell _ h2 => exact redirects_noBlank h2

theorem andOrRest_noBlank {a} (h : Reads (B := B) .andOrRest b l a r b') : NoBlank r := by
  have key : ∀ {n : NT} {b : B.State} {l a r b'}, Reads n b l a r b' → n = .andOrRest → NoBlank r := by
    intro n b l a r b' h
    induction h with
    | andOrEnd h1 => intro hn; exact h1.noBlank
    | andOrAnd _ _ _ _ _ ih => intro hn; exact ih rfl
    | andOrOr _ _ _ _ _ ih => intro hn; exact ih rfl
    | _ => intro hn; cases hn
  exact key h rfl

theorem andOr_noBlank {a} (h : Reads (B := B) .andOr b l a r b') : NoBlank r := by
  cases h with
  | andOr _ h2 _ => exact andOrRest_noBlank h2

/-- At the end of a line there is no word. -/
theorem raw_line {t : Token} {a} (ht : t = .Newline ∨ t = .Pound) (h : Reads (B := B) (.rawWord none) b (t :: l) a r b') :
    a = none ∧ r = t :: l := by
  have hn : NoBlank (t :: l) := by rcases ht with rfl | rfl <;> simp [NoBlank]
  generalize e : t :: l = l0 at h
  cases h with
  | noWord h1 =>
    subst e
    exact ⟨rfl, (h1.eq hn).symm⟩
  | someWord h1 h2 h3 =>
    subst e
    obtain rfl := h1.eq hn
    rcases ht with rfl | rfl
    · generalize e : Token.Newline :: l = l0 at h3
      cases h3 with
      | endWord => subst e; exact ⟨rfl, rfl⟩
      | endEscaped => cases e
      | endBackslash => cases e
      | consPiece h3 h4 h5 =>
        subst e
        generalize e : Token.Newline :: l = l0 at h4
        cases h4 with
        | literal h => cases e; simp [literalTokens] at h
        | special h => cases e; simp [specialTokens] at h
        | singleQuoted => cases e
        | pieceBacktick h =>
          cases h; cases e
        | pieceParam h => cases h <;> cases e
        | _ => cases e
    · exact absurd rfl (h2 _)

theorem redirect_line {t : Token} {a} (ht : t = .Newline ∨ t = .Pound) (h : Reads (B := B) .redirect b (t :: l) a r b') :
    a = none ∧ r = t :: l := by
  cases h with
  | redirect h1 h2 =>
    obtain ⟨-, h⟩ := raw_line ht h1
    cases h
    rcases ht with rfl | rfl <;> simp [redirOps] at h2
  | redirectFd h1 => cases (raw_line ht h1).1
  | redirectWord h1 => cases (raw_line ht h1).1
  | noRedirect h1 => exact ⟨rfl, (raw_line ht h1).2⟩

theorem command_line {t : Token} {a} (ht : t = .Newline ∨ t = .Pound) : ¬ Reads (B := B) .command b (t :: l) a r b' := by
  have hn : NoBlank (t :: l) := by rcases ht with rfl | rfl <;> simp [NoBlank]
  have hk : ∀ w r, ¬ Keyword w (t :: l) r := by
    rintro w r ⟨h | h, -⟩ <;> cases h <;> rcases ht with h | h <;> cases h
  intro h
  cases h with
  | commandCompound h1 h2 =>
    obtain rfl := h1.eq hn
    generalize e : t :: l = l0 at h2
    cases h2 with
    | subshell => cases e; rcases ht with h | h <;> cases h
    | brace => cases e; rcases ht with h | h <;> cases h
    | forKw h => exact hk _ _ (e ▸ h)
    | caseKw h => exact hk _ _ (e ▸ h)
    | ifKw h => exact hk _ _ (e ▸ h)
    | whileKw h => exact hk _ _ (e ▸ h)
    | untilKw h => exact hk _ _ (e ▸ h)
  | commandFunction h1 _ h2 =>
    obtain rfl := h1.eq hn
    generalize e : t :: l = l0 at h2
    cases h2 with
    | keyword h => exact hk _ _ (e ▸ h)
    | paren => cases e; rcases ht with h | h <;> cases h
    | wsParen => cases e; rcases ht with h | h <;> cases h
  | commandSimple h1 _ _ h2 =>
    obtain rfl := h1.eq hn
    cases h2 with
    | simple h3 h4 h5 =>
      have key : ∀ {vs e l1 b1}, Reads (B := B) .assigns b (t :: l) (vs, e) l1 b1 → vs = [] ∧ e = none ∧ l1 = t :: l := by
        intro vs e l1 b1 h
        cases h with
        | assignEmpty h1 => cases h1.eq hn; rcases ht with h | h <;> cases h
        | assign h1 => cases h1.eq hn; rcases ht with h | h <;> cases h
        | assignsRedirect h1 _ h2 => obtain rfl := h1.eq hn; cases (redirect_line ht h2).1
        | assignsWord h1 _ h2 => obtain rfl := h1.eq hn; cases (redirect_line ht h2).1
        | assignsEnd h1 _ h2 => obtain rfl := h1.eq hn; exact ⟨rfl, rfl, (redirect_line ht h2).2⟩
      obtain ⟨rfl, rfl, rfl⟩ := key h3
      cases h4 with
      | argsRedirect h => cases (redirect_line ht h).1
      | argsWord h => cases (redirect_line ht h).1
      | argsEnd h => simp at h5

theorem command_noLine {a} (h : Reads (B := B) .command b l a r b') : NoLineStart l := fun q =>
  ⟨fun e => command_line (.inl rfl) (e ▸ h), fun e => command_line (.inr rfl) (e ▸ h)⟩

theorem pipelineCmds_noLine {a} (h : Reads (B := B) .pipelineCmds b l a r b') : NoLineStart l := by
  cases h with
  | pipeLast _ h => exact command_noLine h
  | pipeCons _ h => exact command_noLine h

theorem pipeline_noLine {a} (h : Reads (B := B) .pipeline b l a r b') (hn : NoBlank l) : NoLineStart l := by
  cases h with
  | pipeline h1 h2 h3 =>
    obtain rfl := h1.eq hn
    rcases h2 with ⟨-, rfl⟩ | ⟨-, rfl, -⟩
    · intro r; simp
    · exact pipelineCmds_noLine h3

theorem andOr_noLine {a} (h : Reads (B := B) .andOr b l a r b') (hn : NoBlank l) : NoLineStart l := by
  cases h with
  | andOr h1 => exact pipeline_noLine h1 hn

/-! ## Putting an operator after it -/

theorem Plain.blank (h : Plain none l) : Plain none (l ++ [.Whitespace w]) := by
  refine ⟨fun _ t ht => ?_, by simp, by simp, by simp⟩
  rcases List.mem_append.1 ht with ht | ht
  · exact h.noHere rfl t ht
  · cases List.mem_singleton.1 ht; simp

/-- A command is read in the same way before an operator. -/
theorem op_extend {n : NT} {a : n.Res B} (hn : n = .command ∨ n = .pipelineCmds ∨ n = .pipeline ∨ n = .andOrRest ∨ n = .andOr)
    (w : Str) (X : List Token) (hx : Plain none l) (hk : IsOp k) (hr : n.oslack k a ≤ r.length) (h : Reads n b l a r b') :
    Plain none r ∧ ∃ r', Reads n b (l ++ .Whitespace w :: k :: X) a r' b' ∧ (r' = r ++ .Whitespace w :: k :: X ∨ r = [] ∧ r' = k :: X) := by
  have hp : n.Proper := by rcases hn with rfl | rfl | rfl | rfl | rfl <;> trivial
  have hsl : n.slack a = 0 := by rcases hn with rfl | rfl | rfl | rfl | rfl <;> rfl
  have hto : n.tout = false := by rcases hn with rfl | rfl | rfl | rfl | rfl <;> rfl
  have hti : n.tin = false := by rcases hn with rfl | rfl | rfl | rfl | rfl <;> rfl
  obtain ⟨r1, ⟨x1, hx1, e1, e2⟩, h1⟩ := h.nlEnd (c := false) hp (l ++ [.Newline]) ⟨l, hx, by simp [nlIf], by simp [nlIf]⟩ (by simp [hsl])
  simp only [nlIf, Bool.false_eq_true, if_false, List.append_nil, Bool.not_false, if_true] at e1 e2
  subst e1 e2
  obtain ⟨r2, e, h2⟩ := h1.cmEnd (w0 := w) (T := [.Newline]) hp (l ++ .Whitespace w :: [.Newline])
    ⟨⟨[], .inr rfl⟩, .inl ⟨l, hx, rfl, rfl⟩⟩ (by simp [hsl])
  rw [hto] at e
  have e : r2 = (r ++ [.Whitespace w]) ++ [.Newline] ∨ r = [] ∧ r2 = [] ++ [.Newline] := by
    rcases e.2 with ⟨x, -, e1, e2⟩ | ⟨-, e1, e2⟩
    · obtain rfl := (List.append_inj' e1 rfl).1
      exact .inl (by simpa using e2)
    · exact .inr ⟨by simpa using e1, e2⟩
  obtain ⟨r3, ⟨-, x, -, e1, e2⟩, h3⟩ := h2.opEnd (k := k) (X := X) hp (l ++ .Whitespace w :: k :: X)
    ⟨hk, l ++ [.Whitespace w], hx.blank, by simp, by simp⟩ (by rcases e with rfl | ⟨rfl, rfl⟩ <;> simp at hr ⊢ <;> omega)
  refine ⟨hx1, r3, h3, ?_⟩
  rcases e with rfl | ⟨rfl, rfl⟩
  · obtain rfl := (List.append_inj' e1 rfl).1
    exact .inl (by simpa using e2)
  · obtain rfl := (List.append_inj' e1 rfl).1
    exact .inr ⟨rfl, e2⟩

theorem noBlank_append {Y : List Token} (h : NoBlank r) (hr : r ≠ []) (hx : Plain none r) : NoBlank (r ++ Y) := by
  obtain ⟨t, r, rfl⟩ := List.exists_cons_of_ne_nil hr
  refine ⟨fun w q e => ?_, fun q e => ?_⟩
  · simp at e; exact h.1 w r (by rw [e.1])
  · simp at e
    cases r with
    | nil => obtain ⟨rfl, -⟩ := e; exact hx.last rfl
    | cons u r => simp at e; exact h.2 r (by rw [e.1, e.2.1])

theorem noLine_append {Y : List Token} (h : NoLineStart r) (hr : r ≠ []) : NoLineStart (r ++ Y) := by
  obtain ⟨t, r, rfl⟩ := List.exists_cons_of_ne_nil hr
  exact fun q => ⟨fun e => by simp at e; exact (h r).1 (by rw [e.1]), fun e => by simp at e; exact (h r).2 (by rw [e.1])⟩

theorem skip_extend {Y : List Token} (h : Skip l r) (hx : Plain none l) (hr : r ≠ []) : Skip (l ++ Y) (r ++ Y) := by
  obtain ⟨bs, rfl, h1, h2⟩ := h
  exact ⟨bs, by simp, h1, noBlank_append h2 hr hx.suffix⟩

theorem Skip.plain (h : Skip l r) (hx : Plain none l) : Plain none r := by
  obtain ⟨bs, rfl, h1, h2⟩ := h
  exact hx.suffix

theorem Lines.plain {ns : List Nl} (h : Lines l ns r) (hx : Plain none l) : Plain none r := by
  obtain ⟨⟨v, rfl⟩, -⟩ := Lines.append_eq h
  exact hx.suffix

theorem lines_extend {Y : List Token} {ns : List Nl} (h : Lines l ns r) (hx : Plain none l) (hr : r ≠ []) :
    Lines (l ++ Y) ns (r ++ Y) := by
  induction h with
  | nil h1 h2 => exact .nil (skip_extend h1 hx hr) (noLine_append h2 hr)
  | cons h1 h2 ih =>
    obtain ⟨v, e⟩ := Line.append_eq h1
    refine .cons (l' := _ ++ Y) ?_ (ih ?_ hr)
    · cases h1 with
      | newline hb => simpa using Line.newline hb
      | comment hb hc => simpa using Line.comment hb hc
      | lastComment =>
        obtain ⟨⟨v, e⟩, -⟩ := Lines.append_eq h2
        cases v <;> simp at e
        exact absurd e hr
    · rw [e] at hx; exact hx.suffix

theorem pipe_ne_nil {n : NT} {a : n.Res B} (hn : n = .pipelineCmds ∨ n = .pipeline)
    (h : Reads n b l a r b') : l ≠ [] := by
  have : r.length < l.length := by
    rcases hn with rfl | rfl
    · exact h.pipelineCmds_lt
    · exact h.pipeline_lt
  rintro rfl
  simp at this

end Gram
end Conch
