import Verif.Given
import Verif.TextTree
import Verif.Alike
/-!
# Nothing is lost (C59): induction on grammar derivations
-/
namespace Conch
open Spec Gram
open Spec.Given (keep kept texts nl nls optNl numeric reserved)

/-- What must not be lost of `l` is in the text `x` or in the rest `r`. -/
def Holds (l : List Token) (x : Str) (r : List Token) : Prop := List.Sublist (keep l) (x ++ keep r)

theorem keep_cons (t : Token) (l) : keep (t :: l) = kept t ++ keep l := by simp [keep]
theorem keep_app (u l : List Token) : keep (u ++ l) = keep u ++ keep l := by simp [keep]

theorem kept_sub (t : Token) : List.Sublist (kept t) t.asStr := by
  cases t with
  | Name s | Literal s => simp only [kept, Token.asStr]; split <;> simp
  | _ => simp [kept]

theorem keep_sub (u : List Token) : List.Sublist (keep u) (concatTokens u) := by
  induction u with
  | nil => simp [keep]
  | cons t u ih => rw [keep_cons, concat_cons]; exact (kept_sub t).append ih

theorem keep_mono {u v : List Token} (h : List.Sublist u v) : List.Sublist (keep u) (keep v) := by
  induction h with
  | slnil => exact .refl _
  | cons t _ ih => rw [keep_cons]; exact ih.trans (List.sublist_append_right _ _)
  | cons_cons t _ ih => rw [keep_cons, keep_cons]; exact List.Sublist.append (.refl _) ih

namespace Holds
variable {l r m u : List Token} {s s' : Str} {t : Token}

theorem refl (l) : Holds l [] l := List.Sublist.refl _

theorem trans (h : Holds l s m) (h' : Holds m s' r) : Holds l (s ++ s') r := by
  unfold Holds at *
  rw [List.append_assoc]
  exact h.trans ((List.Sublist.refl s).append h')

theorem drop (h : Holds l s r) (ht : kept t = [] := by rfl) : Holds (t :: l) s r := by
  unfold Holds at *
  rwa [keep_cons, ht]

theorem drops (h : Holds l s r) (hu : keep u = []) : Holds (u ++ l) s r := by
  unfold Holds at *
  rwa [keep_app, hu]

theorem keep (h : Holds l s r) (x : Str) (hx : List.Sublist (kept t) x) : Holds (t :: l) (x ++ s) r := by
  unfold Holds at *
  rw [keep_cons, List.append_assoc]
  exact hx.append h

theorem keepTok (h : Holds l s r) : Holds (t :: l) (t.asStr ++ s) r := h.keep _ (kept_sub t)

theorem keeps (h : Holds l s r) : Holds (u ++ l) (concatTokens u ++ s) r := by
  unfold Holds at *
  rw [keep_app, List.append_assoc]
  exact (keep_sub u).append h

theorem add (h : Holds l s' r) : Holds l (s ++ s') r := by
  unfold Holds at *
  rw [List.append_assoc]
  exact h.trans (List.sublist_append_right _ _)

theorem «prefix» {z : Str} (h : Holds l s m) (h' : List.Sublist (s ++ Given.keep m) z) : List.Sublist (Given.keep l) z :=
  List.Sublist.trans h h'

theorem of_eq (h : Holds l s r) (e : s = s') : Holds l s' r := e ▸ h

end Holds

theorem blanks_keep {bs : List Token} (h : Gram.Blanks bs) : Given.keep bs = [] := by
  induction h with
  | nil => rfl
  | _ => simp_all [Given.keep, Given.kept]

theorem kept_keyword {w : Str} (h : reserved.contains w = true) : kept (.Name w) = [] ∧ kept (.Literal w) = [] := by
  constructor <;> simp only [kept, h, Bool.true_or, if_true]

theorem kept_numeric {w : Str} (h : numeric w = true) : kept (.Name w) = [] ∧ kept (.Literal w) = [] := by
  constructor <;> simp only [kept, h, Bool.or_true, if_true]

namespace Holds
variable {l r m u : List Token} {s s' : Str} {t : Token}

theorem skip (h : Skip l r) : Holds l [] r := by
  obtain ⟨bs, rfl, hb, -⟩ := h; exact (refl r).drops (blanks_keep hb)

theorem line {n} (h : Line l n r) : Holds l (nl n) r := by
  cases h with
  | newline hb => exact ((refl r).drop).drops (blanks_keep hb)
  | @comment bs cs r hb _ =>
    rw [List.append_assoc]
    have := ((refl r).drop (t := .Newline)).keeps (u := .Pound :: cs)
    rw [List.append_nil] at this
    exact this.drops (blanks_keep hb)
  | @lastComment bs cs hb _ =>
    have := (refl []).keeps (u := .Pound :: cs)
    rw [List.append_nil, List.append_nil] at this
    exact this.drops (blanks_keep hb)

theorem optLine {n} (h : OptLine l n r) : Holds l (optNl n) r := by
  cases h with
  | some h => exact (line h).of_eq (by simp [optNl])
  | none h _ => exact skip h

theorem lines {n} (h : Lines l n r) : Holds l (nls n) r := by
  induction h with
  | nil h _ => exact skip h
  | cons h _ ih => exact (line h).trans ih

theorem keyword {w} (h : Gram.Keyword w l r) (hw : reserved.contains w = true := by decide) : Holds l [] r := by
  obtain ⟨rfl | rfl, -⟩ := h
  · exact (refl r).drop (kept_keyword hw).1
  · exact (refl r).drop (kept_keyword hw).2

theorem kw {w} (h : Kw w l r) (hw : reserved.contains w = true := by decide) : Holds l [] r := by
  obtain ⟨l', h, hk⟩ := h; exact (skip h).trans (keyword hk hw)

theorem parens (h : Parens l r) : Holds l [] r := by
  obtain ⟨l', rfl, h⟩ := h; exact ((skip h).trans (refl r).drop).drop

theorem sepAfter {k c} (h : SepAfter l k c r) : Holds l (optNl c) r := by
  cases h with
  | semi h => exact (optLine h).drop
  | amp h => exact (optLine h).drop
  | newline h _ => exact (line h).of_eq (by simp [optNl])
  | other h _ _ => exact skip h

end Holds

/-! ## Numbers -/

theorem signed_numeric {base : Nat} {s : Str} {n : Int} (h : Signed base s n) (hb : base ≤ 10) : numeric s = true := by
  rcases s with _ | ⟨c, s⟩
  · exact absurd rfl (signed_ne_nil h)
  · have key : ∀ p ∈ digitTable, p.2 < 10 → "+-0123456789".toList.contains p.1 = true := by decide
    show (some c).any (fun c => "+-0123456789".toList.contains c) = true
    rw [Option.any_some]
    rcases signed_mem h (c := c) (by simp) with rfl | rfl | ⟨d, h1, h2⟩
    · decide
    · decide
    · exact key _ h1 (by omega)

theorem numeral_numeric {s : Str} {n : Int} (h : Numeral s n) : numeric s = true := by
  cases h with
  | zero => rfl
  | hex => rfl
  | oct _ _ h => exact signed_numeric h (by omega)
  | dec _ h => exact signed_numeric h (by omega)

theorem paramIn_kept {t : Token} {q : DefaultParameter} (h : ParamIn t q) :
    List.Sublist (kept t) (Given.paramText q) := by
  cases h with
  | name h =>
    cases h with
    | special h =>
      simp only [specialParams, List.mem_cons, Prod.mk.injEq, List.not_mem_nil, or_false] at h
      rcases h with ⟨rfl, rfl⟩ | ⟨rfl, rfl⟩ | ⟨rfl, rfl⟩ | ⟨rfl, rfl⟩ | ⟨rfl, rfl⟩ | ⟨rfl, rfl⟩ | ⟨rfl, rfl⟩ <;>
        exact List.nil_sublist _
    | var => exact kept_sub (.Name _)
  | number h _ _ => rw [(kept_numeric (signed_numeric h (by omega))).2]; exact List.nil_sublist _

/-! ## Arithmetic -/

/-- What must not be lost of tokens with positions. -/
abbrev pKeep (u : List PTok) : Str := keep (u.map (·.2))

theorem pKeep_app (u v : List PTok) : pKeep (u ++ v) = pKeep u ++ pKeep v := by simp [pKeep, keep_app]
theorem pKeep_cons (x : PTok) (v : List PTok) : pKeep (x :: v) = kept x.2 ++ pKeep v := by simp [pKeep, keep_cons]

theorem pBlanks_keep {bs : List PTok} (h : Spec.Blanks bs) : pKeep bs = [] := by
  induction h with
  | nil => rfl
  | ws _ ih => rw [pKeep_cons, ih]; rfl
  | escaped _ ih => rw [pKeep_cons, pKeep_cons, ih]; rfl

theorem ws_keep {ws : List PTok} (h : ∀ t ∈ ws, ∃ w, t.2 = .Whitespace w) : pKeep ws = [] := by
  induction ws with
  | nil => rfl
  | cons x ws ih =>
    obtain ⟨w, e⟩ := h x (by simp)
    rw [pKeep_cons, ih (fun t ht => h t (by simp [ht])), e]
    rfl

theorem varRef_keep {vs : List PTok} {x : Str} (h : VarRef vs x) : List.Sublist (pKeep vs) x := by
  cases h with
  | name => simpa [pKeep, Given.keep, Token.asStr] using kept_sub (.Name x)
  | dollar => simpa [pKeep, Given.keep, show kept .Dollar = [] from rfl, Token.asStr] using kept_sub (.Name x)

theorem bin_given {lvl : Level} {op mk} (h : (op, mk) ∈ binOps lvl) (a b) :
    Given.arithText (mk a b) = Given.arithText a ++ Given.arithText b ∧ keep op = [] := by
  cases lvl <;> simp [binOps] at h <;>
    first
    | (rcases h with ⟨rfl, rfl⟩ | ⟨rfl, rfl⟩ | ⟨rfl, rfl⟩ | ⟨rfl, rfl⟩ <;> exact ⟨rfl, rfl⟩; done)
    | (rcases h with ⟨rfl, rfl⟩ | ⟨rfl, rfl⟩ | ⟨rfl, rfl⟩ <;> exact ⟨rfl, rfl⟩; done)
    | (rcases h with ⟨rfl, rfl⟩ | ⟨rfl, rfl⟩ <;> exact ⟨rfl, rfl⟩; done)
    | (obtain ⟨rfl, rfl⟩ := h; exact ⟨rfl, rfl⟩)

theorem compound_given {op mk} (h : (op, mk) ∈ compoundOps) (a b) :
    Given.arithText (mk a b) = Given.arithText a ++ Given.arithText b ∧ kept op = [] := by
  simp [compoundOps] at h
  rcases h with ⟨rfl, rfl⟩ | ⟨rfl, rfl⟩ | ⟨rfl, rfl⟩ | ⟨rfl, rfl⟩ | ⟨rfl, rfl⟩ | ⟨rfl, rfl⟩ | ⟨rfl, rfl⟩ |
    ⟨rfl, rfl⟩ | ⟨rfl, rfl⟩ | ⟨rfl, rfl⟩ <;> exact ⟨rfl, rfl⟩

theorem expr_given {sep : Signs} :
    ∀ {lvl u a}, Expr sep lvl u a → List.Sublist (pKeep u) (Given.arithText a) := by
  have k : kept .Equals = [] ∧ kept .Question = [] ∧ kept .Colon = [] ∧ kept .Star = [] ∧ kept .Bang = [] ∧
    kept .Tilde = [] ∧ kept .Plus = [] ∧ kept .Dash = [] ∧ kept .ParenOpen = [] ∧ kept .ParenClose = [] ∧
    kept .Comma = [] := ⟨rfl, rfl, rfl, rfl, rfl, rfl, rfl, rfl, rfl, rfl, rfl⟩
  intro lvl u a h
  refine Expr.rec (motive_1 := fun _ u a _ => List.Sublist (pKeep u) (Given.arithText a))
    (motive_2 := fun u as _ => List.Sublist (pKeep u) (Given.arithsText as))
    ?_ ?_ ?_ ?_ ?_ ?_ ?_ ?_ ?_ ?_ ?_ ?_ ?_ ?_ ?_ ?_ ?_ ?_ ?_ ?_ ?_ ?_ h
  · intro _ _ _ _ _ ih; exact ih
  · intro _ _ _ _ ih; simpa [Given.arithText] using ih
  · intro _ _ _ _ _ _ _ hb hv hw _ ih
    simp only [Given.arithText, pKeep_app, pKeep_cons, pBlanks_keep hb, ws_keep hw, k, List.nil_append, List.append_nil]
    exact (varRef_keep hv).append ih
  · intro _ _ _ _ _ _ _ _ _ _ hb hv hw hm _ ih
    simp only [Given.arithText, (compound_given hm _ _).1, (compound_given hm (.Literal 0) (.Literal 0)).2, pKeep_app,
      pKeep_cons, pBlanks_keep hb, ws_keep hw, k, List.nil_append, List.append_nil]
    exact (varRef_keep hv).append (ih.trans (List.sublist_append_right _ _))
  · intro _ _ _ _ _ _ _ _ _ _ _ hb _ hb' _ ih1 ih2 ih3
    simp only [Given.arithText, pKeep_app, pKeep_cons, List.append_assoc, pBlanks_keep hb, pBlanks_keep hb', k,
      List.nil_append]
    exact ih1.append (ih2.append ih3)
  · intro _ _ _ _ op _ _ _ hm _ hb _ _ ih1 ih2
    have e : pKeep op = [] := (bin_given hm (.Literal 0) (.Literal 0)).2
    simp only [(bin_given hm _ _).1, e, pKeep_app, List.append_assoc, pBlanks_keep hb, List.nil_append]
    exact ih1.append ih2
  · intro _ _ _ _ _ _ _ _ hb _ ih1 ih2
    simp only [Given.arithText, pKeep_app, pKeep_cons, List.append_assoc, pBlanks_keep hb, k, List.nil_append]
    exact ih1.append ih2
  · intro _ _ _ _ hb _ ih
    simpa only [Given.arithText, pKeep_app, pKeep_cons, pBlanks_keep hb, k, List.nil_append] using ih
  · intro _ _ _ _ hb _ ih
    simpa only [Given.arithText, pKeep_app, pKeep_cons, pBlanks_keep hb, k, List.nil_append] using ih
  · intro _ _ _ _ hb _ _ ih
    simpa only [Given.arithText, pKeep_app, pKeep_cons, pBlanks_keep hb, k, List.nil_append] using ih
  · intro _ _ _ _ hb _ _ ih
    simpa only [Given.arithText, pKeep_app, pKeep_cons, pBlanks_keep hb, k, List.nil_append] using ih
  · intro _ _ _ _ _ hb _ ih
    simpa only [Given.arithText, pKeep_app, pKeep_cons, pBlanks_keep hb, k, List.nil_append] using ih
  · intro _ _ _ _ _ hb _ ih
    simpa only [Given.arithText, pKeep_app, pKeep_cons, pBlanks_keep hb, k, List.nil_append] using ih
  · intro _ _ _ _ _ _ hb hb' hv
    simpa only [Given.arithText, pKeep_app, pKeep_cons, pBlanks_keep hb, pBlanks_keep hb', k, List.nil_append]
      using varRef_keep hv
  · intro _ _ _ _ _ _ hb hb' hv
    simpa only [Given.arithText, pKeep_app, pKeep_cons, pBlanks_keep hb, pBlanks_keep hb', k, List.nil_append]
      using varRef_keep hv
  · intro _ _ _ _ _ _ hb hv hb'
    simpa only [Given.arithText, pKeep_app, pKeep_cons, pBlanks_keep hb, pBlanks_keep hb', k, List.nil_append,
      show pKeep [] = [] from rfl, List.append_nil] using varRef_keep hv
  · intro _ _ _ _ _ _ hb hv hb'
    simpa only [Given.arithText, pKeep_app, pKeep_cons, pBlanks_keep hb, pBlanks_keep hb', k, List.nil_append,
      show pKeep [] = [] from rfl, List.append_nil] using varRef_keep hv
  · intro _ _ _ hb hv
    simpa only [Given.arithText, pKeep_app, pBlanks_keep hb, List.nil_append] using varRef_keep hv
  · intro _ _ s _ hb hn _
    simp only [Given.arithText, pKeep_app, pKeep_cons, pBlanks_keep hb, (kept_numeric (numeral_numeric hn)).2,
      List.nil_append]
    exact List.Sublist.refl _
  · intro _ _ _ _ _ _ hb _ hb' ih
    simpa only [pKeep_app, pKeep_cons, pBlanks_keep hb, pBlanks_keep hb', k, List.nil_append,
      show pKeep [] = [] from rfl, List.append_nil] using ih
  · intro _ _ _ ih; simpa [Given.arithsText] using ih
  · intro _ _ _ _ _ _ _ hb _ ih1 ih2
    simp only [Given.arithsText, pKeep_app, pKeep_cons, List.append_assoc, pBlanks_keep hb, k, List.nil_append]
    exact ih1.append ih2

theorem expr_given' {sep : Signs} {lvl u a} (h : Expr sep lvl (anywhere u) a) :
    List.Sublist (keep u) (Given.arithText a) := by
  have := expr_given h
  simpa [pKeep, anywhere, Function.comp_def] using this

theorem unescape_kept (u : List Token) : keep (Gram.unescape u) = keep u := by
  have key : ∀ (l : List PTok), pKeep (Spec.unescape l) = pKeep l := by
    intro l
    induction l using Spec.unescape.induct with
    | case1 => simp [Spec.unescape]
    | case2 => simp [Spec.unescape]
    | case3 x y r h1 h2 ih =>
      simp only [Spec.unescape, h1, if_true, h2]
      rw [pKeep_cons, pKeep_cons, pKeep_cons, ih]
      simp_all [kept]
    | case4 x y r h1 h2 ih => simp_all [Spec.unescape, pKeep_cons]
    | case5 x y r h1 ih => simp_all [Spec.unescape, pKeep_cons]
  have := key (anywhere u)
  simpa [pKeep, Gram.unescape, anywhere, Function.comp_def] using this

/-! ## Numbers as descriptors -/

theorem param_literal {B : Builder} {b l w r b'} (h : Reads (B := B) .param b l w r b') (s : Str) (e : w = .Literal s) :
    s = ['$'] := by
  cases h with
  | loneDollar => cases e; rfl
  | braced _ h => subst e; cases h
  | _ => cases e

theorem pieces_fd {B : Builder} {n : NT} {b l a r b'} (h : Reads (B := B) n b l a r b') :
    match (motive := (n : NT) → n.Res B → Prop) n, a with
    | .piece, w => (∃ s, w = .Simple (.Literal s) ∧ ∀ c ∈ s, c ∈ "+-0123456789".toList) → Holds l [] r
    | .pieces _, ws => (∀ w ∈ ws, ∃ s, w = .Simple (.Literal s) ∧ ∀ c ∈ s, c ∈ "+-0123456789".toList) → Holds l [] r
    | _, _ => True := by
  have num : ∀ s : Str, (∀ c ∈ s, c ∈ "+-0123456789".toList) → kept (.Name s) = [] ∧ kept (.Literal s) = [] := by
    intro s hs
    rcases s with _ | ⟨c, s⟩
    · exact ⟨rfl, rfl⟩
    · apply kept_numeric
      show (some c).any (fun c => "+-0123456789".toList.contains c) = true
      rw [Option.any_some]
      simpa using hs c (by simp)
  induction h with
  | @literal _ t _ h1 =>
    intro _
    refine (Holds.refl _).drop ?_
    simp only [literalTokens, List.mem_cons, List.not_mem_nil, or_false] at h1
    rcases h1 with rfl | rfl | rfl | rfl | rfl | rfl | rfl | rfl | rfl | rfl | rfl | rfl <;> rfl
  | name =>
    rintro ⟨s, e, hs⟩
    cases e
    exact (Holds.refl _).drop (num _ hs).1
  | text =>
    rintro ⟨s, e, hs⟩
    cases e
    exact (Holds.refl _).drop (num _ hs).2
  | special h1 =>
    rintro ⟨s, e, hs⟩
    cases e
    simp [specialTokens] at h1
  | escaped | singleQuoted | doubleQuoted => rintro ⟨s, e, hs⟩; cases e
  | pieceBacktick h =>
    rintro ⟨s, e, hs⟩
    cases e
    cases h
  | pieceParam h =>
    rintro ⟨s, e, hs⟩
    cases e
    cases param_literal h s rfl
    exact absurd (hs '$' (by simp)) (by decide)
  | endWord | endCurly => intro _; exact Holds.refl _
  | endEscaped => intro _; exact (Holds.refl _).drop.drop
  | endBackslash => intro _; exact (Holds.refl _).drop
  | consPiece _ _ _ ih1 ih2 =>
    intro h
    exact (ih1 (h _ (by simp))).trans (ih2 fun w hw => h w (by simp [hw]))
  | _ => trivial

theorem fd_holds {B : Builder} {b l k r b'} {n : Nat} (h : Reads (B := B) (.rawWord none) b l (some k) r b')
    (hk : FdWord k n) : Holds l [] r := by
  generalize e : some k = k' at h
  cases h with
  | noWord => cases e
  | @someWord _ _ _ l' ws _ _ h1 _ h2 =>
    refine (Holds.skip h1).trans (pieces_fd h2 ?_)
    obtain ⟨s, hl, hs, -⟩ := hk
    have hc : ∀ c ∈ s, c ∈ "+-0123456789".toList := by
      have key : ∀ p ∈ digitTable, p.2 < 10 → p.1 ∈ "+-0123456789".toList := by decide
      intro c hc
      rcases signed_mem hs hc with rfl | rfl | ⟨d, h1, h2⟩
      · decide
      · decide
      · exact key _ h1 h2
    have hw : ∀ k, wordOf ws = some k → LiteralWord k s →
        ∀ w ∈ ws, ∃ s', w = .Simple (.Literal s') ∧ ∀ c ∈ s', c ∈ s := by
      intro k hk hl
      rcases ws with _ | ⟨w, _ | ⟨w', ws⟩⟩
      · cases hk
      · cases hk
        cases hl
        simp
      · cases hk
        generalize e : w :: w' :: ws = v at hl ⊢
        cases hl with
        | @concat ss =>
          intro x hx
          obtain ⟨s', hs', rfl⟩ := List.mem_map.1 hx
          exact ⟨s', rfl, fun c hc => List.mem_flatten.2 ⟨s', hs', hc⟩⟩
    intro w hw'
    obtain ⟨s', h1, h2⟩ := hw k e.symm hl w hw'
    exact ⟨s', h1, fun c hcs => hc c (h2 c hcs)⟩

/-! ## The induction -/

/-- No here-documents; no comments or no `for`. -/
def Plainly (l : List Token) : Prop :=
  (∀ t ∈ l, t ≠ .DLess ∧ t ≠ .DLessDash) ∧
  ((∀ t ∈ l, t ≠ .Pound) ∨ ∀ t ∈ l, t ≠ .Name FOR ∧ t ≠ .Literal FOR)

theorem Plainly.of {l r : List Token} (hl : Plainly l) (h : ∀ t ∈ r, t ∈ l) : Plainly r :=
  ⟨fun t ht => hl.1 t (h t ht), hl.2.imp (fun h1 t ht => h1 t (h t ht)) (fun h1 t ht => h1 t (h t ht))⟩

theorem Plainly.part {l r : List Token} (hl : Plainly l) (h : Part r l) : Plainly r := hl.of h.2

theorem Plainly.cons {t : Token} {l : List Token} (h : Plainly (t :: l)) : Plainly l := h.part .cons

/-- The text of what is read. -/
def gRes : (n : NT) → n.Res texts → Str
  | .piece, a => Given.partText a
  | .pieces _, a | .substPieces _, a => Given.partsText a
  | .rawWord _, a | .substWord, a => Given.optWordText a
  | .wordP, a | .word, a | .fnStart _, a | .top, a => Option.getD (α := Str) a []
  | .words, a | .patterns, a | .redirects, a => List.flatten (α := Char) a
  | .interpParts _, a => a.flatMap (fun x => match x with
      | .inl s => s
      | .inr w => Given.simpleText w)
  | .interp _, a => Given.simplesText a
  | .param, a | .curly _, a | .backtick, a => Given.simpleText a
  | .subshell _, a | .group _, a | .brace, a | .doGroup, a => Given.group a
  | .redirTail _, a | .heredoc _, a | .simple, a | .function, a | .command, a | .compound _, a | .pipeline, a
  | .andOr, a | .complete _, a => a
  | .redirect, a => Given.returned .redirect a
  | .assigns, a => a.1.flatMap Given.assign ++ Option.getD (α := Str) a.2 []
  | .args, a => a.flatMap Given.arg
  | .ifArms, a | .ifCommand, a => Given.ifText a
  | .loopCommand, a => Given.pair a.2
  | .forWords _, a => Given.forWords a.1 ++ nls a.2
  | .forCommand, a => Given.forText a
  | .arms, a => a.1.flatMap Given.arm ++ nls a.2
  | .caseCommand, a => Given.caseText a
  | .pipelineCmds, a => a.flatMap fun x => x.2 ++ nls x.1
  | .andOrRest, a => a.flatMap fun x => nls x.1 ++ Given.andOr x.2

/-- What was read before. -/
def _root_.Conch.Gram.NT.prior : NT → Str
  | .curly (.Var x) => x
  | .complete pre => nls pre
  | _ => []

/-- What was read before holds no comments. -/
def _root_.Conch.Gram.NT.Bare : NT → Prop
  | .forWords post => nls post = []
  | .interpParts d | .interp d => ∀ t, d = some t → kept t = []
  | .top => False
  | _ => True

theorem gParts_wordOf (ws : List (WordKind Str)) : Given.optWordText (wordOf ws) = Given.partsText ws := by
  rcases ws with _ | ⟨w, _ | _⟩ <;> simp [wordOf, Given.optWordText, Given.wordText, Given.partsText]

theorem gSimples_append (u v : List (SimpleWordKind Str)) :
    Given.simplesText (u ++ v) = Given.simplesText u ++ Given.simplesText v := by
  induction u with
  | nil => simp [Given.simplesText]
  | cons s u ih => simp [Given.simplesText, ih]

theorem gSimples_text (s : Str) : Given.simplesText (textOf s) = s := by
  unfold textOf; split <;> simp_all [Given.simplesText, Given.simpleText]

theorem gSimples_gather (ps : List (Str ⊕ SimpleWordKind Str)) (s : Str) :
    Given.simplesText (gather s ps) = s ++ ps.flatMap (fun x => match x with
      | .inl s => s
      | .inr w => Given.simpleText w) := by
  induction ps generalizing s with
  | nil => simp [gather, gSimples_text]
  | cons p ps ih =>
    cases p with
    | inl t => simp [gather, ih]
    | inr w => simp [gather, gSimples_append, gSimples_text, Given.simplesText, ih]

theorem gSubstOps {t mk} (h : (t, mk) ∈ substOps Str) (c q w) :
    Given.substText (mk c q w) = Given.paramText q ++ Given.optWordText w ∧ kept t = [] := by
  simp only [substOps, List.mem_cons, Prod.mk.injEq, List.not_mem_nil, or_false] at h
  rcases h with ⟨rfl, rfl⟩ | ⟨rfl, rfl⟩ | ⟨rfl, rfl⟩ | ⟨rfl, rfl⟩ <;> exact ⟨rfl, rfl⟩

theorem gPathOps {t mk} (h : (t, mk) ∈ pathOps Str) (fd w) : Given.redirText (mk fd w) = w ∧ kept t = [] := by
  simp only [pathOps, List.mem_cons, Prod.mk.injEq, List.not_mem_nil, or_false] at h
  rcases h with ⟨rfl, rfl⟩ | ⟨rfl, rfl⟩ | ⟨rfl, rfl⟩ | ⟨rfl, rfl⟩ | ⟨rfl, rfl⟩ <;> exact ⟨rfl, rfl⟩

theorem gDupOps {t mk} (h : (t, mk) ∈ dupOps Str) (fd w) : Given.redirText (mk fd w) = w ∧ kept t = [] := by
  simp only [dupOps, List.mem_cons, Prod.mk.injEq, List.not_mem_nil, or_false] at h
  rcases h with ⟨rfl, rfl⟩ | ⟨rfl, rfl⟩ <;> exact ⟨rfl, rfl⟩

theorem lines_noPound {l r : List Token} {ns : List Nl} (h : Lines l ns r) (hp : ∀ t ∈ l, t ≠ .Pound) : nls ns = [] := by
  induction h with
  | nil => rfl
  | cons h1 h2 ih =>
    have e := ih fun t ht => hp t (h1.part.2 t ht)
    simp only [nls, List.flatMap_cons] at e ⊢
    refine List.append_eq_nil_iff.2 ⟨?_, e⟩
    cases h1 with
    | newline => rfl
    | comment | lastComment => exact absurd rfl (hp .Pound (by simp))

/-- The claim. -/
def GClaim (n : NT) (l : List Token) (a : n.Res texts) (r : List Token) : Prop :=
  List.Sublist (n.prior ++ keep l) (gRes n a ++ keep r)

theorem gc {n : NT} {l r : List Token} {a : n.Res texts} {s : Str} (h : Holds l s r) (e : s = gRes n a)
    (hp : n.prior = [] := by rfl) : GClaim n l a r := by
  unfold GClaim
  rw [hp, ← e]
  exact h

theorem GClaim.holds {n : NT} {l r : List Token} {a : n.Res texts} (h : GClaim n l a r) (hp : n.prior = [] := by rfl) :
    Holds l (gRes n a) r := by
  unfold GClaim at h
  rwa [hp] at h

theorem after_q {q : DefaultParameter} {l r : List Token} {w : SimpleWordKind Str} {x : Str} (h : Holds l x r)
    (e : Given.simpleText w = Given.paramText q ++ x) : GClaim (.curly q) l w r := by
  unfold GClaim
  show List.Sublist _ (Given.simpleText w ++ _)
  rw [e, List.append_assoc]
  refine List.Sublist.append ?_ h
  cases q <;> first | exact List.Sublist.refl _ | exact List.nil_sublist _

theorem calls_texts {c : Call texts.toBTypes} {b b' : Str} {a v : c.Ret}
    (h : Gram.Calls (B := texts) c b a b') (e : (texts.call c b).1 = .ok v) : a = v := by
  have h1 : (texts.call c b).1 = .ok a := congrArg Prod.fst h
  rw [e] at h1
  injection h1 with h1
  exact h1.symm

/-! ## The main induction -/

local macro "gs" : tactic => `(tactic|
  first
  | rfl
  | (simp [gRes, Given.partText, Given.partsText, Given.simpleText, Given.simplesText, Given.substText, Given.optWordText, Given.wordText, Given.group, Given.pair,
    Given.ifText, Given.forWords, Given.forText, Given.arm, Given.caseText, Given.assign, Given.arg, Given.andOr, Given.redirText, Given.returned, nls, nl, optNl, asStr_name, asStr_literal, gParts_wordOf,
    gSimples_gather]; done))

set_option maxHeartbeats 2000000 in
theorem reads_given {n : NT} {b l a r b'} (h : Reads (B := texts) n b l a r b') :
    n.Bare → Plainly l → GClaim n l a r := by
  induction h with
  | literal h1 => exact fun _ _ => gc (Holds.refl _).keepTok (by gs)
  | name => exact fun _ _ => gc (Holds.refl _).keepTok (by gs)
  | text => exact fun _ _ => gc (Holds.refl _).keepTok (by gs)
  | special h1 =>
    intro _ _
    refine gc (Holds.refl _).keepTok ?_
    simp only [specialTokens, List.mem_cons, Prod.mk.injEq, List.not_mem_nil, or_false] at h1
    rcases h1 with ⟨rfl, rfl⟩ | ⟨rfl, rfl⟩ | ⟨rfl, rfl⟩ | ⟨rfl, rfl⟩ | ⟨rfl, rfl⟩ | ⟨rfl, rfl⟩ <;> rfl
  | escaped h1 => exact fun _ _ => gc (Holds.refl _).keepTok.drop (by gs)
  | singleQuoted h1 => exact fun _ _ => gc (Holds.refl _).drop.keeps.drop (by gs)
  | doubleQuoted h1 ih => exact fun _ hT => gc (Holds.drop (GClaim.holds (ih (by rintro t ⟨⟩; rfl) hT.cons))) rfl
  | pieceBacktick h1 ih => exact fun _ hT => gc (GClaim.holds <| ih trivial hT) (by gs)
  | pieceParam h1 ih => exact fun _ hT => gc (GClaim.holds <| ih trivial hT) (by gs)
  | endWord h1 => exact fun _ _ => gc (Holds.refl _) (by gs)
  | endCurly => exact fun _ _ => gc (Holds.refl _) (by gs)
  | endEscaped h1 => exact fun _ _ => gc (Holds.refl _).drop.drop (by gs)
  | endBackslash => exact fun _ _ => gc (Holds.refl _).drop (by gs)
  | consPiece h1 h2 h3 ih1 ih2 => exact fun _ hT => gc (Holds.trans (GClaim.holds <| ih1 trivial hT) (GClaim.holds <| ih2 trivial (hT.part (by pt)))) (by gs)
  | noWord h1 => exact fun _ _ => gc (Holds.skip h1) (by gs)
  | someWord h1 h2 h3 ih =>
    exact fun _ hT => gc ((Holds.skip h1).trans (GClaim.holds <| ih trivial (hT.part (by pt)))) (by gs)
  | wordPSome h1 h2 ih =>
    intro _ hT
    refine gc (GClaim.holds (ih trivial hT)) ?_
    obtain rfl := calls_texts h2 rfl
    gs
  | wordPNone h1 ih => exact fun _ hT => gc (GClaim.holds <| ih trivial hT) (by gs)
  | word h1 h2 ih => exact fun _ hT => gc (Holds.trans (GClaim.holds <| ih trivial hT) (Holds.skip h2)) (by gs)
  | wordsNil h1 ih => exact fun _ hT => gc (GClaim.holds <| ih trivial hT) (by gs)
  | wordsCons h1 h2 ih1 ih2 =>
    exact fun _ hT => gc (Holds.trans (GClaim.holds <| ih1 trivial hT) (GClaim.holds <| ih2 trivial (hT.part (by pt)))) (by gs)
  | interpEnd => exact fun hb _ => gc ((Holds.refl _).drop (hb _ rfl)) rfl
  | interpEof => exact fun _ _ => gc (Holds.refl _) (by gs)
  | interpParam h1 h2 h3 ih1 ih2 =>
    exact fun hb hT => gc (Holds.trans (GClaim.holds (ih1 trivial hT)) (GClaim.holds (ih2 hb (hT.part (by pt))))) (by gs)
  | interpBacktick h1 h2 h3 ih1 ih2 =>
    exact fun hb hT => gc (Holds.trans (GClaim.holds (ih1 trivial hT)) (GClaim.holds (ih2 hb (hT.part (by pt))))) (by gs)
  | interpEscaped h1 h2 h3 ih =>
    exact fun hb hT => gc (Holds.keepTok (GClaim.holds (ih hb hT.cons.cons))).drop (by gs)
  | interpBackslash h1 h2 h3 h4 ih => exact fun hb hT => gc (Holds.keepTok (GClaim.holds (ih hb hT.cons))) (by gs)
  | interpText h1 h2 h3 h4 ih => exact fun hb hT => gc (Holds.keepTok (GClaim.holds (ih hb hT.cons))) (by gs)
  | interp h1 ih => exact fun hb hT => gc (GClaim.holds (ih hb hT)) (by simp only [gRes]; rw [gSimples_gather]; rfl)
  | positional => exact fun _ _ => gc (Holds.refl _).drop (by gs)
  | @parameter _ t q _ h1 =>
    intro _ _
    refine gc ((Holds.refl _).keep (Given.paramText q) ?_).drop (by gs)
    exact paramIn_kept (.name h1)
  | loneDollar h1 => exact fun _ _ => gc (Holds.refl _).keepTok (by gs)
  | @«arithmetic» _ l l' u l1 l2 a r h1 h2 h3 h4 h5 h6 =>
    intro _ _
    subst h3
    have e : Holds (u ++ l1) (Given.arithText a) l1 := by
      unfold Holds; rw [keep_app]; exact (expr_given' h4).append (.refl _)
    refine gc ((((((Holds.skip h1).trans e).trans (Holds.skip h5)).trans (Holds.refl _).drop).trans
      (Holds.skip h6)).trans (Holds.refl _).drop).drop.drop.drop ?_
    simp [gRes, Given.simpleText, Given.substText]
  | noArithmetic h1 h2 =>
    exact fun _ _ => gc ((((Holds.skip h1).trans (Holds.refl _).drop).trans (Holds.skip h2)).trans (Holds.refl _).drop).drop.drop.drop (by gs)
  | commandSubst h1 h2 ih => exact fun _ hT => gc (Holds.drop (GClaim.holds <| ih trivial (hT.cons))) (by gs)
  | @braced _ t q l w r _ h1 h2 ih =>
    intro _ hT
    have h3 := ih trivial hT.cons.cons.cons
    have h4 : List.Sublist ((NT.curly q).prior ++ keep l) (Given.simpleText w ++ keep r) := h3
    have h5 : List.Sublist (kept t) (NT.curly q).prior := by
      cases h1 with
      | name h =>
        cases h with
        | special h =>
          simp only [specialParams, List.mem_cons, Prod.mk.injEq, List.not_mem_nil, or_false] at h
          rcases h with ⟨rfl, rfl⟩ | ⟨rfl, rfl⟩ | ⟨rfl, rfl⟩ | ⟨rfl, rfl⟩ | ⟨rfl, rfl⟩ | ⟨rfl, rfl⟩ | ⟨rfl, rfl⟩ <;>
            exact List.nil_sublist _
        | var => exact kept_sub (.Name _)
      | number h _ _ => rw [(kept_numeric (signed_numeric h (by omega))).2]; exact List.nil_sublist _
    have h6 : Holds (t :: l) (Given.simpleText w) r := by
      unfold Holds
      rw [keep_cons]
      exact (h5.append (.refl _)).trans h4
    exact gc h6.drop.drop rfl
  | curlyEnd =>
    intro _ _
    exact after_q (Holds.refl _).drop (by simp [Given.simpleText])
  | curlyColonEnd =>
    intro _ _
    exact after_q (Holds.refl _).drop.drop (by simp [Given.simpleText])
  | @curlyLen _ t q r h1 h2 =>
    intro _ _
    exact gc ((Holds.refl _).drop.keep (Given.paramText q) (paramIn_kept h1)) (by gs)
  | @curlyLenSpecial _ t q r h1 =>
    intro _ _
    have e : kept t = [] := by
      simp only [List.mem_cons, Prod.mk.injEq, List.not_mem_nil, or_false] at h1
      rcases h1 with ⟨rfl, rfl⟩ | ⟨rfl, rfl⟩ | ⟨rfl, rfl⟩ <;> rfl
    exact gc ((Holds.refl _).drop.keep (Given.paramText q) (e ▸ List.nil_sublist _)) (by gs)
  | curlyOp h1 h2 h3 ih =>
    intro _ hT
    exact after_q ((GClaim.holds (ih trivial hT.cons)).drop (gSubstOps h1 true .At none).2) (gSubstOps h1 _ _ _).1
  | curlyColonOp h1 h2 ih =>
    intro _ hT
    exact after_q ((GClaim.holds (ih trivial hT.cons.cons)).drop (gSubstOps h1 true .At none).2).drop (gSubstOps h1 _ _ _).1
  | curlyPercent h1 h2 ih =>
    intro _ hT
    exact after_q (GClaim.holds (ih trivial hT.cons)).drop rfl
  | curlyPercent2 h1 ih =>
    intro _ hT
    exact after_q (GClaim.holds (ih trivial hT.cons.cons)).drop.drop rfl
  | curlyPound h1 h2 h3 ih =>
    intro _ hT
    exact after_q (GClaim.holds (ih trivial hT.cons)).drop rfl
  | curlyPound2 h1 ih =>
    intro _ hT
    exact after_q (GClaim.holds (ih trivial hT.cons.cons)).drop.drop rfl
  | substEnd => exact fun _ _ => gc (Holds.refl _).drop (by gs)
  | substDelim h1 h2 ih => exact fun _ hT => gc (Holds.keepTok (GClaim.holds <| ih trivial (hT.cons))) (by gs)
  | substPound h1 ih => exact fun _ hT => gc (Holds.keepTok (GClaim.holds <| ih trivial (hT.cons))) (by gs)
  | substEscaped h1 ih => exact fun _ hT => gc (Holds.keepTok (GClaim.holds <| ih trivial (hT.cons.cons))).drop (by gs)
  | substDropped h1 ih => exact fun _ hT => gc (Holds.drop (Holds.drop (GClaim.holds <| ih trivial (hT.cons.cons)))) (by gs)
  | substPiece h1 h2 h3 h4 ih1 ih2 => exact fun _ hT => gc (Holds.trans (GClaim.holds <| ih1 trivial hT) (GClaim.holds <| ih2 trivial (hT.part (by pt)))) (by gs)
  | substWord h1 ih => exact fun _ hT => gc (GClaim.holds <| ih trivial hT) (by gs)
  | @backtick _ u r g _ h1 h2 ih =>
    intro _ hT
    have h3 := GClaim.holds (ih trivial (hT.of fun t ht => by
      have := (unescape_sub u).subset ht
      simp [this]))
    unfold Holds at h3
    rw [unescape_kept] at h3
    have e : Holds (u ++ .Backtick :: r) (Given.group g) r := by
      unfold Holds
      rw [keep_app, keep_cons]
      refine List.Sublist.append ?_ (List.Sublist.refl _)
      have h4 : List.Sublist (keep u) (Given.group g ++ []) := h3
      rwa [List.append_nil] at h4
    exact gc e.drop rfl
  | subshell h1 h2 ih => exact fun _ hT => gc (Holds.trans (GClaim.holds <| ih trivial (hT.cons)) (Holds.refl _).drop).drop (by gs)
  | groupEnd h1 h2 => exact fun _ _ => gc (Holds.lines h1) (by gs)
  | @groupCons _ cfg l ns l1 c l2 _ cs ms r _ h1 h2 h3 h4 h5 ih1 ih2 =>
    intro _ hT
    have e1 := ih1 trivial (hT.part (by pt))
    have e2 := GClaim.holds (ih2 trivial (hT.part (by pt)))
    have e3 : List.Sublist (gRes (.complete ns) c ++ keep l2) (gRes (.complete ns) c ++ (gRes (.group cfg) ⟨cs, ms⟩ ++ keep r)) :=
      List.Sublist.append (.refl _) e2
    have e4 : Holds l (gRes (.complete ns) c ++ gRes (.group cfg) ⟨cs, ms⟩) r := by
      unfold Holds
      rw [List.append_assoc]
      exact (Holds.lines h1).prefix (e1.trans e3)
    exact gc e4 (by gs)
  | brace h1 h2 h3 h4 h5 h6 ih =>
    exact fun _ hT => gc (((((Holds.skip h1).trans (Holds.refl _).drop).trans (GClaim.holds <| ih trivial (hT.part (by pt)))).trans (Holds.skip h5)).trans (Holds.refl _).drop) (by gs)
  | doGroup h1 h2 h3 h4 ih =>
    exact fun _ hT => gc (((Holds.kw h1).trans (GClaim.holds <| ih trivial (hT.part (by pt)))).trans (Holds.kw h4)) (by gs)
  | redirPath h1 h2 h3 h4 h5 ih =>
    intro _ hT
    obtain rfl := calls_texts h4 rfl
    obtain rfl := calls_texts h5 rfl
    refine gc (((Holds.skip h2).trans (GClaim.holds <| ih trivial (hT.part (by pt)))).drop (gPathOps h1 none []).2) ?_
    exact (gPathOps h1 _ _).1.symm
  | redirDupDash h1 h2 h3 h4 h5 =>
    intro _ hT
    obtain rfl := calls_texts h4 rfl
    obtain rfl := calls_texts h5 rfl
    refine gc ((((Holds.skip h2).trans (Holds.refl _).keepTok)).drop (gDupOps h1 none []).2) ?_
    exact (gDupOps h1 _ _).1.symm
  | redirDup h1 h2 h3 h4 h5 h6 h7 ih =>
    intro _ hT
    obtain rfl := calls_texts h6 rfl
    obtain rfl := calls_texts h7 rfl
    refine gc (((Holds.skip h2).trans (GClaim.holds <| ih trivial (hT.part (by pt)))).drop (gDupOps h1 none []).2) ?_
    exact (gDupOps h1 _ _).1.symm
  | redirHeredoc h1 ih => exact fun _ hT => gc (GClaim.holds <| ih trivial hT) (by gs)
  | @heredocQuoted _ _ t _ _ _ _ _ _ _ _ _ _ _ _ _ h1 =>
    intro _ hT
    have := hT.1 t (by simp)
    rcases h1 with rfl | rfl <;> simp at this
  | @heredoc _ fd t l l1 u l2 delim saved l3 body r ps _ _ _ _ _ h1 h2 h3 h4 h5 h6 h7 h8 h9 h10 ih =>
    intro _ hT
    have := hT.1 t (by simp)
    rcases h1 with rfl | rfl <;> simp at this
  | redirect h1 h2 h3 ih1 ih2 =>
    exact fun _ hT => gc (Holds.trans (GClaim.holds <| ih1 trivial hT) (GClaim.holds <| ih2 trivial (hT.part (by pt)))) (by gs)
  | redirectFd h1 h2 h3 h4 ih1 ih2 =>
    intro _ hT
    exact gc ((fd_holds h1 h2).trans (GClaim.holds <| ih2 trivial (hT.part (by pt)))) (by gs)
  | redirectWord h1 h2 h3 ih =>
    intro _ hT
    obtain rfl := calls_texts h3 rfl
    exact gc (GClaim.holds (ih trivial hT)) (by gs)
  | noRedirect h1 h2 ih => exact fun _ hT => gc (GClaim.holds <| ih trivial hT) (by gs)
  | redirectsNil h1 h2 ih =>
    exact fun _ hT => gc ((Holds.skip h1).trans (GClaim.holds <| ih trivial (hT.part (by pt)))) (by gs)
  | redirectsCons h1 h2 h3 ih1 ih2 =>
    exact fun _ hT => gc (((Holds.skip h1).trans (GClaim.holds <| ih1 trivial (hT.part (by pt)))).trans (GClaim.holds <| ih2 trivial (hT.part (by pt)))) (by gs)
  | assignEmpty h1 h2 ih =>
    exact fun _ hT => gc ((Holds.skip h1).trans (Holds.keepTok (Holds.drop (GClaim.holds <| ih trivial (hT.part (by pt))))))
      (by gs)
  | assign h1 h2 h3 h4 ih1 ih2 =>
    exact fun _ hT => gc (((Holds.skip h1).trans (Holds.keepTok (Holds.drop (GClaim.holds <| ih1 trivial (hT.part (by pt)))))).trans (GClaim.holds <| ih2 trivial (hT.part (by pt))))
      (by gs)
  | assignsRedirect h1 h2 h3 h4 ih1 ih2 =>
    exact fun _ hT => gc (((Holds.skip h1).trans (GClaim.holds <| ih1 trivial (hT.part (by pt)))).trans (GClaim.holds <| ih2 trivial (hT.part (by pt))))
      (by gs)
  | assignsWord h1 h2 h3 ih =>
    exact fun _ hT => gc ((Holds.skip h1).trans (GClaim.holds <| ih trivial (hT.part (by pt)))) (by gs)
  | assignsEnd h1 h2 h3 ih =>
    exact fun _ hT => gc ((Holds.skip h1).trans (GClaim.holds <| ih trivial (hT.part (by pt)))) (by gs)
  | argsRedirect h1 h2 ih1 ih2 =>
    exact fun _ hT => gc (Holds.trans (GClaim.holds <| ih1 trivial hT) (GClaim.holds <| ih2 trivial (hT.part (by pt)))) (by gs)
  | argsWord h1 h2 ih1 ih2 =>
    exact fun _ hT => gc (Holds.trans (GClaim.holds <| ih1 trivial hT) (GClaim.holds <| ih2 trivial (hT.part (by pt)))) (by gs)
  | argsEnd h1 ih => exact fun _ hT => gc (GClaim.holds <| ih trivial hT) (by gs)
  | @simple _ _ vs e _ _ as _ _ _ _ h1 h2 h3 h4 ih1 ih2 =>
    intro _ hT
    obtain rfl := calls_texts h4 rfl
    refine gc (Holds.trans (GClaim.holds <| ih1 trivial hT) (GClaim.holds <| ih2 trivial (hT.part (by pt)))) ?_
    cases e <;> simp [gRes, Given.arg]
  | ifElif h1 h2 h3 h4 h5 h6 h7 ih1 ih2 ih3 =>
    exact fun _ hT => gc (((((Holds.trans (GClaim.holds <| ih1 trivial hT) (Holds.kw h3)).trans (GClaim.holds <| ih2 trivial (hT.part (by pt)))).trans (Holds.kw h6))).trans (GClaim.holds <| ih3 trivial (hT.part (by pt))))
      (by gs)
  | ifElse h1 h2 h3 h4 h5 h6 h7 h8 h9 ih1 ih2 ih3 =>
    exact fun _ hT => gc ((((((Holds.trans (GClaim.holds <| ih1 trivial hT) (Holds.kw h3)).trans (GClaim.holds <| ih2 trivial (hT.part (by pt)))).trans (Holds.kw h6))).trans (GClaim.holds <| ih3 trivial (hT.part (by pt)))).trans (Holds.kw h9))
      (by gs)
  | ifFi h1 h2 h3 h4 h5 h6 ih1 ih2 =>
    exact fun _ hT => gc (((Holds.trans (GClaim.holds <| ih1 trivial hT) (Holds.kw h3)).trans (GClaim.holds <| ih2 trivial (hT.part (by pt)))).trans (Holds.kw h6))
      (by gs)
  | ifCommand h1 h2 ih => exact fun _ hT => gc ((Holds.kw h1).trans (GClaim.holds <| ih trivial (hT.part (by pt)))) (by gs)
  | @loopCommand _ k _ _ _ _ _ _ _ _ h1 h2 h3 h4 ih1 ih2 =>
    exact fun _ hT => gc (((Holds.kw h1 (by cases k <;> decide)).trans (GClaim.holds (ih1 trivial (hT.part (by pt))))).trans (GClaim.holds (ih2 trivial (hT.part (by pt))))) (by gs)
  | @forIn _ _ l l1 ws l2 _ l3 c l4 ns r h1 h2 h3 h4 h5 ih =>
    intro hb hT
    have e : Holds l2 [] l3 := by
      rcases h3 with rfl | ⟨rfl, _⟩
      · exact (Holds.refl _).drop
      · exact Holds.refl _
    refine gc (((((Holds.kw h1).trans (GClaim.holds <| ih trivial (hT.part (by pt)))).trans e).trans (Holds.optLine h4)).trans (Holds.lines h5)) ?_
    have hb' : nls _ = [] := hb
    simp [gRes, Given.forWords, hb']
  | forSemi h1 h2 => exact fun _ _ => gc ((Holds.skip h1).trans (Holds.drop (Holds.lines h2))) (by gs)
  | forDo h1 h2 =>
    intro hb _
    have hb' : nls _ = [] := hb
    exact gc (Holds.skip h1) (by simp [gRes, Given.forWords, hb'])
  | @forCommand _ l l1 l2 x c l3 post l4 ws pre l5 _ body r _ h1 h2 h3 h4 h5 h6 ih1 ih2 =>
    intro _ hT
    have hb : nls post = [] := by
      rcases hT.2 with h | h
      · refine lines_noPound h4 fun t ht => h t ?_
        have : Part l3 l := by pt
        exact this.2 t ht
      · obtain ⟨l', hl, ⟨rfl | rfl, -⟩⟩ := h1
        · exact absurd rfl (h _ (hl.part.2 _ (by simp))).1
        · exact absurd rfl (h _ (hl.part.2 _ (by simp))).2
    refine gc (((((((Holds.kw h1).trans (Holds.skip h2)).trans (Holds.refl _).keepTok).trans (Holds.optLine h3)).trans (Holds.lines h4)).trans (GClaim.holds <| ih1 hb (hT.part (by pt)))).trans (GClaim.holds <| ih2 trivial (hT.part (by pt)))) ?_
    simp [gRes, Given.forText, asStr_name, hb]
  | patternLast h1 ih => exact fun _ hT => gc (Holds.trans (GClaim.holds <| ih trivial hT) (Holds.refl _).drop) (by gs)
  | patternCons h1 h2 ih1 ih2 =>
    exact fun _ hT => gc (Holds.trans (GClaim.holds <| ih1 trivial hT) (Holds.drop (GClaim.holds <| ih2 trivial (hT.part (by pt))))) (by gs)
  | armsEnd h1 h2 => exact fun _ _ => gc (Holds.lines h1) (by gs)
  | @armsCons _ l pre l1 l2 ps l3 _ c l4 g l5 _ ac l6 as ns r _ h1 h2 h3 h4 h5 h6 h7 h8 ih1 ih2 ih3 =>
    intro _ hT
    have e : Holds l1 [] l2 := by
      rcases h3 with rfl | ⟨rfl, _⟩
      · exact (Holds.refl _).drop
      · exact Holds.refl _
    exact gc (((((((Holds.lines h1).trans e).trans (GClaim.holds <| ih1 trivial (hT.part (by pt)))).trans (Holds.optLine h5)).trans (GClaim.holds <| ih2 trivial (hT.part (by pt)))).trans (Holds.drop (Holds.optLine h7))).trans (GClaim.holds <| ih3 trivial (hT.part (by pt))))
      (by gs)
  | @armsLast _ l pre l1 l2 ps l3 _ c l4 g r _ h1 h2 h3 h4 h5 h6 h7 ih1 ih2 =>
    intro _ hT
    have e : Holds l1 [] l2 := by
      rcases h3 with rfl | ⟨rfl, _⟩
      · exact (Holds.refl _).drop
      · exact Holds.refl _
    exact gc (((((Holds.lines h1).trans e).trans (GClaim.holds <| ih1 trivial (hT.part (by pt)))).trans (Holds.optLine h5)).trans (GClaim.holds <| ih2 trivial (hT.part (by pt))))
      (by gs)
  | caseCommand h1 h2 h3 h4 h5 h6 h7 h8 ih1 ih2 =>
    exact fun _ hT => gc ((((((((Holds.kw h1).trans (GClaim.holds <| ih1 trivial (hT.part (by pt)))).trans (Holds.lines h3)).trans (Holds.kw h4)).trans (Holds.optLine h5)).trans (GClaim.holds <| ih2 trivial (hT.part (by pt)))).trans (Holds.lines h7)).trans (Holds.kw h8))
      (by gs)
  | compoundIf h1 h2 h3 ih1 ih2 =>
    intro _ hT
    obtain rfl := calls_texts h3 rfl
    exact gc (Holds.trans (GClaim.holds <| ih1 trivial hT) (GClaim.holds <| ih2 trivial (hT.part (by pt)))) rfl
  | compoundLoop h1 h2 h3 h4 ih1 ih2 =>
    intro _ hT
    obtain rfl := calls_texts h4 rfl
    exact gc (Holds.trans (GClaim.holds <| ih1 trivial hT) (GClaim.holds <| ih2 trivial (hT.part (by pt)))) rfl
  | compoundFor h1 h2 h3 ih1 ih2 =>
    intro _ hT
    obtain rfl := calls_texts h3 rfl
    exact gc (Holds.trans (GClaim.holds <| ih1 trivial hT) (GClaim.holds <| ih2 trivial (hT.part (by pt)))) rfl
  | compoundCase h1 h2 h3 ih1 ih2 =>
    intro _ hT
    obtain rfl := calls_texts h3 rfl
    exact gc (Holds.trans (GClaim.holds <| ih1 trivial hT) (GClaim.holds <| ih2 trivial (hT.part (by pt)))) rfl
  | compoundBrace h1 h2 h3 ih1 ih2 =>
    intro _ hT
    obtain rfl := calls_texts h3 rfl
    exact gc (Holds.trans (GClaim.holds <| ih1 trivial hT) (GClaim.holds <| ih2 trivial (hT.part (by pt)))) rfl
  | compoundSubshell h1 h2 h3 ih1 ih2 =>
    intro _ hT
    obtain rfl := calls_texts h3 rfl
    exact gc (Holds.trans (GClaim.holds <| ih1 trivial hT) (GClaim.holds <| ih2 trivial (hT.part (by pt)))) rfl
  | fnParens h1 => exact fun _ _ => gc (Holds.parens h1) (by gs)
  | fnNewline => exact fun _ _ => gc (Holds.refl _) (by gs)
  | fnWsParens h1 h2 => exact fun _ _ => gc ((Holds.skip h1).trans (Holds.parens h2)).drop (by gs)
  | fnWs h1 h2 => exact fun _ _ => gc (Holds.skip h1).drop (by gs)
  | fnEmpty h1 h2 ih => exact fun _ hT => gc ((Holds.skip h1).trans (GClaim.holds <| ih trivial (hT.part (by pt)))).drop (by gs)
  | fnSubshell h1 h2 h3 h4 ih =>
    intro _ hT
    refine gc ((Holds.skip h1).trans (GClaim.holds <| ih trivial (hT.part (by pt)))).drop ?_
    obtain rfl := calls_texts h4 rfl
    gs
  | @function _ found l l1 x l2 l3 _ ns l4 kw c r _ a _ h1 h2 h3 h4 h5 h6 h7 ih1 ih2 =>
    intro _ hT
    have e : Holds l [] l1 := by
      rcases h1 with ⟨_, h⟩ | ⟨_, rfl, _⟩
      · exact Holds.kw h
      · exact Holds.refl _
    have e' : Part l1 l := by
      rcases h1 with ⟨_, h⟩ | ⟨_, rfl, _⟩
      · exact h.part
      · exact .refl
    refine gc (((((e.trans (Holds.skip h2)).trans (Holds.refl _).keepTok).trans (GClaim.holds <| ih1 trivial (hT.part (by pt)))).trans (Holds.lines h4)).trans (GClaim.holds <| ih2 trivial (hT.part (by pt)))) ?_
    obtain rfl := calls_texts h7 rfl
    gs
  | functionSubshell h1 h2 h3 h4 ih =>
    intro _ hT
    refine gc ((((Holds.kw h1).trans (Holds.skip h2)).trans (Holds.refl _).keepTok).trans (GClaim.holds <| ih trivial (hT.part (by pt)))) ?_
    obtain rfl := calls_texts h4 rfl
    gs
  | commandCompound h1 h2 h3 h4 ih =>
    intro _ hT
    have e := (Holds.skip h1).trans (GClaim.holds <| ih trivial (hT.part (by pt)))
    have e' := calls_texts h4 rfl
    exact gc e e'.symm
  | commandFunction h1 h2 h3 h4 ih => exact fun _ hT => gc ((Holds.skip h1).trans (GClaim.holds <| ih trivial (hT.part (by pt)))) (by gs)
  | commandSimple h1 h2 h3 h4 ih => exact fun _ hT => gc ((Holds.skip h1).trans (GClaim.holds <| ih trivial (hT.part (by pt)))) (by gs)
  | pipeLast h1 h2 h3 ih => exact fun _ hT => gc (GClaim.holds <| ih trivial hT) (by gs)
  | pipeCons h1 h2 h3 h4 ih1 ih2 =>
    exact fun _ hT => gc (Holds.trans (GClaim.holds <| ih1 trivial hT) (Holds.drop ((Holds.lines h3).trans (GClaim.holds <| ih2 trivial (hT.part (by pt)))))) (by gs)
  | @pipeline _ l l1 bang l2 cs r _ a _ h1 h2 h3 h4 ih =>
    intro _ hT
    have e : Holds l1 [] l2 := by
      rcases h2 with ⟨_, rfl⟩ | ⟨_, rfl, _⟩
      · exact (Holds.refl _).drop
      · exact Holds.refl _
    obtain rfl := calls_texts h4 rfl
    exact gc (((Holds.skip h1).trans e).trans (GClaim.holds <| ih trivial (hT.part (by pt)))) rfl
  | andOrEnd h1 h2 => exact fun _ _ => gc (Holds.skip h1) (by gs)
  | andOrAnd h1 h2 h3 h4 ih1 ih2 =>
    exact fun _ hT => gc ((((Holds.skip h1).trans (Holds.drop (Holds.lines h2))).trans (GClaim.holds <| ih1 trivial (hT.part (by pt)))).trans (GClaim.holds <| ih2 trivial (hT.part (by pt))))
      (by gs)
  | andOrOr h1 h2 h3 h4 ih1 ih2 =>
    exact fun _ hT => gc ((((Holds.skip h1).trans (Holds.drop (Holds.lines h2))).trans (GClaim.holds <| ih1 trivial (hT.part (by pt)))).trans (GClaim.holds <| ih2 trivial (hT.part (by pt))))
      (by gs)
  | andOr h1 h2 h3 ih1 ih2 =>
    intro _ hT
    refine gc (Holds.trans (GClaim.holds <| ih1 trivial hT) (GClaim.holds <| ih2 trivial (hT.part (by pt)))) ?_
    obtain rfl := calls_texts h3 rfl
    gs
  | @complete _ pre _ _ _ _ s _ _ _ _ h1 h2 h3 ih =>
    intro _ hT
    obtain rfl := calls_texts h3 rfl
    have e := Holds.trans (GClaim.holds (ih trivial hT)) (Holds.sepAfter h2)
    have e' : List.Sublist (nls pre ++ keep _) (nls pre ++ (_ ++ keep _)) := List.Sublist.append (.refl _) e
    unfold GClaim
    have e2 : ∀ {x y : Str}, x = y → List.Sublist x y := fun h => h ▸ .refl _
    refine e'.trans (e2 ?_)
    simp [gRes]
  | topCommand => exact fun h _ => h.elim
  | topNone => exact fun h _ => h.elim
  | topComments => exact fun h _ => h.elim

end Conch
