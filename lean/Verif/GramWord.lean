import Verif.GramHere
import Verif.GramScan
/-!
# Exact runs of words, without positions
-/
namespace Conch.Gram
open Conch

section
variable {B : Builder} {R : Rec AIter B}

/-! ## Parts of words -/

theorem wordBody_literal {d : Option Token} {acc : List (WordKind B.Command)} {t : Token} {r : List Token}
    {b : B.State} (h : t ∈ literalTokens) (hd : d ≠ some t) :
    Run (wordBody R d acc) (t :: r) b (.cont (acc ++ [.Simple (.Literal t.asStr)])) r b := by
  unfold wordBody
  refine .peekCons ?_
  dsimp only
  rw [if_neg (Ne.symm hd)]
  simp only [literalTokens, List.mem_cons, List.not_mem_nil, or_false] at h
  rcases h with rfl | rfl | rfl | rfl | rfl | rfl | rfl | rfl | rfl | rfl | rfl | rfl <;>
    exact .getPos fun p => .next .pure

theorem wordBody_name {d : Option Token} {acc : List (WordKind B.Command)} {s : Str} {r : List Token}
    {b : B.State} (hd : d ≠ some (.Name s)) :
    Run (wordBody R d acc) (.Name s :: r) b (.cont (acc ++ [.Simple (.Literal s)])) r b := by
  unfold wordBody
  refine .peekCons ?_
  dsimp only
  rw [if_neg (Ne.symm hd)]
  exact .getPos fun p => .next .pure

theorem wordBody_text {d : Option Token} {acc : List (WordKind B.Command)} {s : Str} {r : List Token}
    {b : B.State} (hd : d ≠ some (.Literal s)) :
    Run (wordBody R d acc) (.Literal s :: r) b (.cont (acc ++ [.Simple (.Literal s)])) r b := by
  unfold wordBody
  refine .peekCons ?_
  dsimp only
  rw [if_neg (Ne.symm hd)]
  exact .getPos fun p => .next .pure

theorem wordBody_special {d : Option Token} {acc : List (WordKind B.Command)} {t : Token} {w}
    {r : List Token} {b : B.State} (h : (t, w) ∈ specialTokens B.Command) (hd : d ≠ some t) :
    Run (wordBody R d acc) (t :: r) b (.cont (acc ++ [.Simple w])) r b := by
  unfold wordBody
  refine .peekCons ?_
  dsimp only
  rw [if_neg (Ne.symm hd)]
  simp only [specialTokens, List.mem_cons, List.not_mem_nil, or_false, Prod.mk.injEq] at h
  rcases h with ⟨rfl, rfl⟩ | ⟨rfl, rfl⟩ | ⟨rfl, rfl⟩ | ⟨rfl, rfl⟩ | ⟨rfl, rfl⟩ | ⟨rfl, rfl⟩ <;>
    exact .getPos fun p => .next .pure

theorem wordBody_escaped {d : Option Token} {acc : List (WordKind B.Command)} {t : Token}
    {r : List Token} {b : B.State} (h : t ≠ .Newline) (hd : d ≠ some .Backslash) :
    Run (wordBody R d acc) (.Backslash :: t :: r) b (.cont (acc ++ [.Simple (.Escaped t.asStr)])) r b := by
  unfold wordBody
  refine .peekCons ?_
  dsimp only
  rw [if_neg (Ne.symm hd)]
  refine .getPos fun p => .next ?_
  refine Run.next ?_
  cases t <;> first | exact .pure | exact absurd rfl h

theorem wordBody_endEscaped {d : Option Token} {acc : List (WordKind B.Command)}
    {r : List Token} {b : B.State} (hd : d ≠ some .Backslash) :
    Run (wordBody R d acc) (.Backslash :: .Newline :: r) b (.done acc) r b := by
  unfold wordBody
  refine .peekCons ?_
  dsimp only
  rw [if_neg (Ne.symm hd)]
  refine .getPos fun p => .next ?_
  exact Run.next .pure

theorem wordBody_endBackslash {d : Option Token} {acc : List (WordKind B.Command)}
    {b : B.State} (hd : d ≠ some .Backslash) :
    Run (wordBody R d acc) [.Backslash] b (.done acc) [] b := by
  unfold wordBody
  refine .peekCons ?_
  dsimp only
  rw [if_neg (Ne.symm hd)]
  refine .getPos fun p => .next ?_
  exact Run.nextNil .pure

theorem wordBody_single {d : Option Token} {acc : List (WordKind B.Command)} {u : List Token}
    {r : List Token} {b : B.State} (h : ∀ t ∈ u, t ≠ .SingleQuote) (hd : d ≠ some .SingleQuote) :
    Run (wordBody R d acc) (.SingleQuote :: u ++ .SingleQuote :: r) b
      (.cont (acc ++ [.SingleQuoted (concatTokens u)])) r b := by
  unfold wordBody
  rw [List.cons_append]
  refine .peekCons ?_
  dsimp only
  rw [if_neg (Ne.symm hd)]
  refine .getPos fun p => .next ?_
  exact Run.bind (Run.singleQuoted p h) .pure

theorem wordBody_double {d : Option Token} {acc : List (WordKind B.Command)} {l : List Token}
    {r : List Token} {b b' : B.State} {ss} (hd : d ≠ some .DoubleQuote)
    (h : ∀ p, Run (wordInterpolatedRaw R (some (.DoubleQuote, .DoubleQuote)) p) l b ss r b') :
    Run (wordBody R d acc) (.DoubleQuote :: l) b (.cont (acc ++ [.DoubleQuoted ss])) r b' := by
  unfold wordBody
  refine .peekCons ?_
  dsimp only
  rw [if_neg (Ne.symm hd)]
  refine .getPos fun p => .next ?_
  exact Run.bind (h p) .pure

theorem wordBody_backtick {d : Option Token} {acc : List (WordKind B.Command)} {l : List Token}
    {r : List Token} {b b' : B.State} {w} (hd : d ≠ some .Backtick)
    (h : Run (backtickedRaw R) (.Backtick :: l) b w r b') :
    Run (wordBody R d acc) (.Backtick :: l) b (.cont (acc ++ [.Simple w])) r b' := by
  unfold wordBody
  refine .peekCons ?_
  dsimp only
  rw [if_neg (Ne.symm hd)]
  exact Run.bind h .pure

theorem wordBody_param {d : Option Token} {acc : List (WordKind B.Command)} {t : Token} {l : List Token}
    {r : List Token} {b b' : B.State} {w} (ht : t.startsParam = true) (hd : d ≠ some t)
    (h : Run R.param (t :: l) b w r b') :
    Run (wordBody R d acc) (t :: l) b (.cont (acc ++ [.Simple w])) r b' := by
  unfold wordBody
  refine .peekCons ?_
  dsimp only
  rw [if_neg (Ne.symm hd)]
  cases t <;> first | exact Run.bind h .pure | cases ht

theorem wordBody_end {d : Option Token} {acc : List (WordKind B.Command)} {r : List Token}
    {b : B.State} (h : EndsWord r ∨ ∃ t r', r = t :: r' ∧ d = some t) :
    Run (wordBody R d acc) r b (.done acc) r b := by
  unfold wordBody
  refine .peek ?_
  cases r with
  | nil => exact .pure
  | cons t r =>
    simp only [List.head?_cons]
    rcases h with h | ⟨t, r', h, rfl⟩
    · split
      · exact .pure
      · rw [if_pos (h t r rfl)]; exact .pure
    · cases h
      rw [if_pos rfl]; exact .pure

theorem wordOf_eq {C : Type} (ws : List (WordKind C)) : mkWord ws = wordOf ws := by
  unfold mkWord wordOf; rfl

theorem wordRaw_none {d : Option Token} {l r : List Token} {b : B.State} (h : Skip l (.Pound :: r)) :
    Run (wordRawDelim R d) l b none (.Pound :: r) b := by
  unfold wordRawDelim
  exact .bind (.skip h) (.peek .pure)

theorem head_ne {l : List Token} {t : Token} (h : ∀ r, l ≠ t :: r) : l.head? ≠ some t := by
  cases l with
  | nil => simp
  | cons u l => rintro h'; cases h'; exact h _ rfl

theorem wordRaw_some {d : Option Token} {l l' r : List Token} {ws} {b b' : B.State} (h : Skip l l')
    (hp : ∀ r, l' ≠ .Pound :: r) (hw : LRun (wordBody R d) [] l' b ws r b') :
    Run (wordRawDelim R d) l b (wordOf ws) r b' := by
  unfold wordRawDelim
  refine .bind (.skip h) (.peek ?_)
  rw [if_neg (head_ne hp), ← wordOf_eq]
  exact .bind hw.run .pure

theorem wordP_some {l r : List Token} {k w} {b b' b'' : B.State}
    (h : Run (wordRawDelim R none) l b (some k) r b') (hw : B.call (.word k) b' = (.ok w, b'')) :
    Run (wordPreserve R) l b (some w) r b'' := by
  unfold wordPreserve wordRaw
  exact .bind h (.bind (.call hw) .pure)

theorem wordP_none {l r : List Token} {b b' : B.State}
    (h : Run (wordRawDelim R none) l b none r b') : Run (wordPreserve R) l b none r b' := by
  unfold wordPreserve wordRaw
  exact .bind h .pure

theorem word_run {l l' r : List Token} {w} {b b' : B.State}
    (h : Run (wordPreserve R) l b w l' b') (hs : Skip l' r) : Run (word R) l b w r b' := by
  unfold word
  exact .bind h (.bind (.skip hs) .pure)

/-! ## Interpolated words -/

/-- What the loop over an interpolated word makes of its parts. -/
def InterpRun (R : Rec AIter B) (delim : Option (Token × Token)) (ws : List (SimpleWordKind B.Command))
    (s : Str) (l : List Token) (b : B.State) (ps : List (Str ⊕ SimpleWordKind B.Command))
    (r : List Token) (b' : B.State) : Prop :=
  ∀ p, ∃ x, LRun (interpBody R delim p) (ws, s) l b x r b' ∧ flush x = ws ++ gather s ps

theorem flush_eq {C : Type} (ws : List (SimpleWordKind C)) (s : Str) :
    flush (ws, s) = ws ++ textOf s := by
  unfold flush textOf
  cases s <;> simp

theorem interp_end {d : Option (Token × Token)} {o t : Token} {ws s} {r : List Token} {b : B.State}
    (hd : d = some (o, t)) : InterpRun R d ws s (t :: r) b [] r b := by
  subst hd
  intro p
  refine ⟨(ws, s), .done ?_, flush_eq ws s⟩
  unfold interpBody
  refine .peekCons ?_
  rw [if_pos (by simp)]
  exact .next .pure

theorem interp_eof {ws s} {b : B.State} : InterpRun R none ws s [] b [] [] b := by
  intro p
  refine ⟨(ws, s), .done ?_, flush_eq ws s⟩
  unfold interpBody
  refine .peekNil ?_
  rw [if_pos (by simp)]
  exact .nextNil .pure

theorem interp_cont {d : Option (Token × Token)} {ws s} {l l1 r : List Token} {b b1 b' : B.State}
    {w ps} (h : ∀ p, Run (interpBody R d p (ws, s)) l b (.cont (store (ws, s) w)) l1 b1)
    (hl : l1.length < l.length) (ih : ∀ ws s, InterpRun R d ws s l1 b1 ps r b') :
    InterpRun R d ws s l b (.inr w :: ps) r b' := by
  intro p
  obtain ⟨x, h1, h2⟩ := ih (flush (ws, s) ++ [w]) [] p
  refine ⟨x, .cont (h p) hl h1, ?_⟩
  rw [h2, flush_eq]
  simp [gather]

theorem interp_text {d : Option (Token × Token)} {ws s t} {l l1 r : List Token} {b b1 b' : B.State}
    {ps} (h : ∀ p, Run (interpBody R d p (ws, s)) l b (.cont (ws, s ++ t)) l1 b1)
    (hl : l1.length < l.length) (ih : ∀ ws s, InterpRun R d ws s l1 b1 ps r b') :
    InterpRun R d ws s l b (.inl t :: ps) r b' := by
  intro p
  obtain ⟨x, h1, h2⟩ := ih ws (s ++ t) p
  refine ⟨x, .cont (h p) hl h1, ?_⟩
  rw [h2]
  simp [gather]

theorem interpBody_param {d : Option (Token × Token)} {x t w} {l r : List Token} {b b' : B.State}
    (ht : t.startsParam = true) (hd : d.map (·.2) ≠ some t) (h : Run R.param (t :: l) b w r b') :
    ∀ p, Run (interpBody R d p x) (t :: l) b (.cont (store x w)) r b' := by
  intro p
  unfold interpBody
  refine .peekCons ?_
  rw [if_neg (Ne.symm hd), if_pos (by simpa using ht)]
  exact .bind h .pure

theorem interpBody_backtick {d : Option (Token × Token)} {x w} {l r : List Token} {b b' : B.State}
    (hd : d.map (·.2) ≠ some .Backtick) (h : Run (backtickedRaw R) (.Backtick :: l) b w r b') :
    ∀ p, Run (interpBody R d p x) (.Backtick :: l) b (.cont (store x w)) r b' := by
  intro p
  unfold interpBody
  refine .peekCons ?_
  rw [if_neg (Ne.symm hd)]
  exact .bind h .pure

theorem interpBody_escaped {d : Option (Token × Token)} {x t} {l : List Token} {b : B.State}
    (hd : d.map (·.2) ≠ some .Backslash) (h : t ∈ quotable ∨ d.map (·.2) = some t) :
    ∀ p, Run (interpBody R d p x) (.Backslash :: t :: l) b (.cont (store x (.Escaped t.asStr))) l b := by
  intro p
  unfold interpBody
  refine .peekCons ?_
  rw [if_neg (Ne.symm hd)]
  refine Run.next (.peekCons ?_)
  rw [if_pos]
  · exact .next .pure
  · rcases h with h | h
    · simp [(dqSpecial_iff t).2 h]
    · simp [h]

theorem interpBody_backslash {d : Option (Token × Token)} {x : InterpSt B.Command} {l : List Token}
    {b : B.State} (hd : d.map (·.2) ≠ some .Backslash)
    (h : ∀ t l', l = t :: l' → t ∉ quotable ∧ d.map (·.2) ≠ some t) (hne : l ≠ []) :
    ∀ p, Run (interpBody R d p x) (.Backslash :: l) b (.cont (x.1, x.2 ++ Token.Backslash.asStr)) l b := by
  intro p
  unfold interpBody
  refine .peekCons ?_
  rw [if_neg (Ne.symm hd)]
  refine Run.next ?_
  cases l with
  | nil => exact absurd rfl hne
  | cons t l =>
    obtain ⟨h1, h2⟩ := h t l rfl
    refine .peekCons ?_
    rw [if_neg]
    · exact .pure
    · have : ¬ t.dqSpecial = true := fun h => h1 ((dqSpecial_iff t).1 h)
      simp only [Option.any_some, this, Bool.or_eq_true, decide_eq_true_eq]
      rintro (h | h)
      · cases h
      · exact h2 h.symm

theorem interpBody_text {d : Option (Token × Token)} {x : InterpSt B.Command} {t : Token} {l : List Token}
    {b : B.State} (hd : d.map (·.2) ≠ some t) (h1 : t ∉ [Token.Dollar, .Backtick, .Backslash])
    (h2 : ∀ p, t ≠ .ParamPositional p) :
    ∀ p, Run (interpBody R d p x) (t :: l) b (.cont (x.1, x.2 ++ t.asStr)) l b := by
  intro p
  unfold interpBody
  refine .peekCons ?_
  rw [if_neg (Ne.symm hd)]
  cases t <;> first
    | exact Run.next .pure
    | exact absurd rfl (h2 _)
    | simp at h1

theorem interp_run {d : Option (Token × Token)} {ps} {l r : List Token} {b b' : B.State}
    (h : InterpRun R d [] [] l b ps r b') : ∀ p, Run (wordInterpolatedRaw R d p) l b (gather [] ps) r b' := by
  intro p
  obtain ⟨x, h1, h2⟩ := h p
  unfold wordInterpolatedRaw
  refine .bind h1.run ?_
  rw [h2]
  exact .pure

/-! ## Parameters -/

theorem parameterInner_name {t q} {r : List Token} {b : B.State} (h : ParamName t q) :
    Run parameterInner (t :: r) b q r b := by
  unfold parameterInner
  refine .getPos fun p => .next ?_
  cases h with
  | special h =>
    simp only [specialParams, List.mem_cons, List.not_mem_nil, or_false, Prod.mk.injEq] at h
    rcases h with ⟨rfl, rfl⟩ | ⟨rfl, rfl⟩ | ⟨rfl, rfl⟩ | ⟨rfl, rfl⟩ | ⟨rfl, rfl⟩ | ⟨rfl, rfl⟩ | ⟨rfl, rfl⟩ <;>
      exact .pure
  | var => exact .pure

theorem signed_unsigned {max : Nat} {s : Str} {n : Int} (h : Spec.Signed 10 s n) (hn : n ≤ max)
    (hs : s.head? ≠ some '-') : parseUnsigned 10 max s = some n.toNat := by
  rw [parseUnsigned_iff]
  cases h with
  | @plain s ds h1 h2 => exact ⟨by omega, ds, s, .inl rfl, h1, h2, by simp⟩
  | @plus s ds h1 h2 => exact ⟨by omega, ds, s, .inr rfl, h1, h2, by simp⟩
  | minus h1 h2 => simp at hs

theorem parameterInner_in {t q} {r : List Token} {b : B.State} (h : ParamIn t q) :
    Run parameterInner (t :: r) b q r b := by
  cases h with
  | name h => exact parameterInner_name h
  | number h1 h2 h3 =>
    unfold parameterInner
    refine .getPos fun p => .next ?_
    dsimp only
    rw [signed_unsigned h1 h2 h3]
    exact .pure

theorem param_positional {p} {r : List Token} {b : B.State} :
    Run (parameterRaw R) (.ParamPositional p :: r) b (.Param (.Positional p.asNum)) r b := by
  unfold parameterRaw
  exact .getPos fun _ => .next .pure

theorem paramName_start {t q} (h : ParamName t q) : t.paramStart = true := by
  cases h with
  | special h =>
    simp only [specialParams, List.mem_cons, List.not_mem_nil, or_false, Prod.mk.injEq] at h
    rcases h with ⟨rfl, rfl⟩ | ⟨rfl, rfl⟩ | ⟨rfl, rfl⟩ | ⟨rfl, rfl⟩ | ⟨rfl, rfl⟩ | ⟨rfl, rfl⟩ | ⟨rfl, rfl⟩ <;> rfl
  | var => rfl

theorem start_paramName {t} (h : t.paramStart = true) : ∃ q, ParamName t q := by
  cases t
  case Name x => exact ⟨_, .var⟩
  case Star => exact ⟨.Star, .special (by simp [specialParams])⟩
  case Pound => exact ⟨.Pound, .special (by simp [specialParams])⟩
  case Question => exact ⟨.Question, .special (by simp [specialParams])⟩
  case Dollar => exact ⟨.Dollar, .special (by simp [specialParams])⟩
  case Bang => exact ⟨.Bang, .special (by simp [specialParams])⟩
  case Dash => exact ⟨.Dash, .special (by simp [specialParams])⟩
  case At => exact ⟨.At, .special (by simp [specialParams])⟩
  all_goals cases h

theorem param_name {t q} {r : List Token} {b : B.State} (h : ParamName t q) :
    Run (parameterRaw R) (.Dollar :: t :: r) b (.Param q) r b := by
  unfold parameterRaw
  refine .getPos fun _ => .next (.peekCons ?_)
  rw [if_pos (by simpa using paramName_start h)]
  exact .bind (parameterInner_name h) .pure

theorem param_lone {r : List Token} {b : B.State}
    (h : ∀ t r', r = t :: r' → t ≠ .ParenOpen ∧ t ≠ .CurlyOpen ∧ ∀ q, ¬ ParamName t q) :
    Run (parameterRaw R) (.Dollar :: r) b (.Literal Token.Dollar.asStr) r b := by
  unfold parameterRaw
  refine .getPos fun _ => .next ?_
  cases r with
  | nil => exact .peekNil .pure
  | cons t r =>
    obtain ⟨h1, h2, h3⟩ := h t r rfl
    refine .peekCons ?_
    rw [if_neg, if_neg]
    · exact .pure
    · simp [h1, h2]
    · intro h
      obtain ⟨q, hq⟩ := start_paramName (t := t) (by simpa using h)
      exact h3 q hq

theorem param_subst {t : Token} {l r : List Token} {b b' : B.State} {w}
    (ht : t = .ParenOpen ∨ t = .CurlyOpen)
    (h : Run (parameterSubstitutionRaw R) (t :: l) b w r b') :
    Run (parameterRaw R) (.Dollar :: t :: l) b w r b' := by
  unfold parameterRaw
  refine .getPos fun _ => .next (.peekCons ?_)
  rcases ht with rfl | rfl <;> exact h

theorem mpSecondParenOpen_it (m : AMultipeek) : (mpSecondParenOpen (I := AIter) m).2.it = m.it := rfl

theorem mpSecondParenOpen_val (it : AIter) (t : Token) (l : List Token) :
    (mpSecondParenOpen (I := AIter) (AMultipeek.mk it (t :: l))).1 = decide (l.head? = some .ParenOpen) :=
  rfl

theorem subst_arith {l l' u l1 l2 r : List Token} {b : B.State} {a} (h1 : Skip l l')
    (h2 : ∀ r, l' ≠ .ParenClose :: r) (h3 : l' = u ++ l1)
    (h4 : Spec.Expr .munch .seq (anywhere u) a) (h5 : Skip l1 (.ParenClose :: l2))
    (h6 : Skip l2 (.ParenClose :: r)) :
    Run (parameterSubstitutionRaw R) (.ParenOpen :: .ParenOpen :: l) b (.Subst (.Arith (some a))) r b := by
  unfold parameterSubstitutionRaw
  refine .getPos fun _ => .peekCons ?_
  dsimp only
  refine .lookahead true mpSecondParenOpen_it (fun it => mpSecondParenOpen_val it _ _) ?_
  rw [if_pos rfl]
  unfold paramSubstArith
  refine .eat (.eat (.bind (.skip h1) ?_))
  refine .bind (a := some a) (r := .ParenClose :: l2) (b' := b) ?_ ?_
  · refine .peek ?_
    rw [if_neg (head_ne h2)]
    exact .bind (Run.arith h3 h4 h5) .pure
  · refine .bind (.skip (.refl h5.noBlank)) (.eat (.bind (.skip h6) (.eat .pure)))

theorem subst_noArith {l l2 r : List Token} {b : B.State} (h1 : Skip l (.ParenClose :: l2))
    (h6 : Skip l2 (.ParenClose :: r)) :
    Run (parameterSubstitutionRaw R) (.ParenOpen :: .ParenOpen :: l) b (.Subst (.Arith none)) r b := by
  unfold parameterSubstitutionRaw
  refine .getPos fun _ => .peekCons ?_
  dsimp only
  refine .lookahead true mpSecondParenOpen_it (fun it => mpSecondParenOpen_val it _ _) ?_
  rw [if_pos rfl]
  unfold paramSubstArith
  refine .eat (.eat (.bind (.skip h1) ?_))
  refine .bind (a := none) (r := .ParenClose :: l2) (b' := b) ?_ ?_
  · exact .peekCons .pure
  · refine .bind (.skip (.refl h1.noBlank)) (.eat (.bind (.skip h6) (.eat .pure)))

theorem subst_command {l r : List Token} {b b' : B.State} {g}
    (h : ∀ l', l ≠ .ParenOpen :: l')
    (hs : Run (subshellInternal R true) (.ParenOpen :: l) b g r b') :
    Run (parameterSubstitutionRaw R) (.ParenOpen :: l) b (.Subst (.Command g)) r b' := by
  unfold parameterSubstitutionRaw
  refine .getPos fun _ => .peekCons ?_
  dsimp only
  refine .lookahead false mpSecondParenOpen_it ?_ ?_
  · intro it
    rw [mpSecondParenOpen_val]
    exact decide_eq_false (head_ne h)
  · rw [if_neg (by simp)]
    exact .bind hs .pure

theorem subst_braced {t q} {l r : List Token} {b b' : B.State} {w} (h : ParamIn t q)
    (hs : ∀ p, Run (paramSubstCurly R p q) l b w r b') :
    Run (parameterSubstitutionRaw R) (.CurlyOpen :: t :: l) b w r b' := by
  unfold parameterSubstitutionRaw
  refine .getPos fun p => .peekCons ?_
  exact Run.next (.bind (parameterInner_in h) (hs p))

/-! ## `${..}` -/

theorem curly_body {p q} {t : Token} {l r : List Token} {b b' : B.State} {w} (h1 : t ≠ .Percent) (h2 : t ≠ .Pound)
    (h3 : q = .Pound → t ∈ [Token.Colon, .Dash, .Equals, .Question, .Plus, .CurlyClose])
    (h : Run (paramSubstBodyRaw R q p) (t :: l) b w r b') :
    Run (paramSubstCurly R p q) (t :: l) b w r b' := by
  have key : Run (if q = .Pound then
      if some t = some .Colon || some t = some .Dash || some t = some .Equals || some t = some .Question
          || some t = some .Plus || some t = some .CurlyClose then
        paramSubstBodyRaw R q p
      else do
        let param ← parameterInner
        eat .CurlyClose
        pure (.Subst (.Len param))
    else paramSubstBodyRaw R q p) (t :: l) b w r b' := by
    split
    · rename_i hq
      rw [if_pos]
      · exact h
      · simpa [or_assoc] using h3 hq
    · exact h
  unfold paramSubstCurly
  refine .peekCons ?_
  cases t <;> first | exact key | exact absurd rfl h1 | exact absurd rfl h2

theorem curly_end {p q} {r : List Token} {b : B.State} :
    Run (paramSubstCurly R p q) (.CurlyClose :: r) b (.Param q) r b := by
  refine curly_body (by simp) (by simp) (by simp) ?_
  unfold paramSubstBodyRaw
  exact .eatNo (by simp) (.getPos fun _ => .next .pure)

theorem curly_colonEnd {p q} {r : List Token} {b : B.State} :
    Run (paramSubstCurly R p q) (.Colon :: .CurlyClose :: r) b (.Param q) r b := by
  refine curly_body (by simp) (by simp) (by simp) ?_
  unfold paramSubstBodyRaw
  exact .eatYes (.getPos fun _ => .next .pure)

theorem curly_len {p t q} {r : List Token} {b : B.State} (h : ParamIn t q)
    (ht : t ∉ [Token.Percent, .Pound, .Colon, .Dash, .Equals, .Question, .Plus, .CurlyClose]) :
    Run (paramSubstCurly R p .Pound) (t :: .CurlyClose :: r) b (.Subst (.Len q)) r b := by
  have key : Run (if (.Pound : DefaultParameter) = .Pound then
      if some t = some .Colon || some t = some .Dash || some t = some .Equals || some t = some .Question
          || some t = some .Plus || some t = some .CurlyClose then
        paramSubstBodyRaw R .Pound p
      else do
        let param ← parameterInner
        eat .CurlyClose
        pure (.Subst (.Len param))
    else paramSubstBodyRaw R .Pound p) (t :: .CurlyClose :: r) b (.Subst (.Len q)) r b := by
    rw [if_pos rfl, if_neg]
    · exact .bind (parameterInner_in h) (.eat .pure)
    · simp at ht; simp [ht]
  unfold paramSubstCurly
  refine .peekCons ?_
  cases t <;> first | exact key | simp at ht

theorem curly_percent {p q} {l r : List Token} {b b' : B.State} {w} (hl : ∀ l', l ≠ .Percent :: l')
    (h : Run (paramSubstWordRaw R p) l b w r b') :
    Run (paramSubstCurly R p q) (.Percent :: l) b (.Subst (.RemoveSmallestSuffix q w)) r b' := by
  unfold paramSubstCurly
  refine .peekCons ?_
  exact Run.next (.eatNo hl (.bind h .pure))

theorem curly_percent2 {p q} {l r : List Token} {b b' : B.State} {w}
    (h : Run (paramSubstWordRaw R p) l b w r b') :
    Run (paramSubstCurly R p q) (.Percent :: .Percent :: l) b (.Subst (.RemoveLargestSuffix q w)) r b' := by
  unfold paramSubstCurly
  refine .peekCons ?_
  exact Run.next (.eatYes (.bind h .pure))

theorem curly_pound {p q} {l r : List Token} {b b' : B.State} {w} (hl : ∀ l', l ≠ .Pound :: l')
    (h : Run (paramSubstWordRaw R p) l b w r b') (hq : ¬ (q = .Pound ∧ w = none)) :
    Run (paramSubstCurly R p q) (.Pound :: l) b (.Subst (.RemoveSmallestPrefix q w)) r b' := by
  unfold paramSubstCurly
  refine .peekCons ?_
  refine Run.next (.eatNo hl (.bind h ?_))
  rw [if_neg]
  · exact .pure
  · cases w
    · simpa using hq
    · simp

theorem curly_lenPound {p} {l r : List Token} {b b' : B.State} (hl : ∀ l', l ≠ .Pound :: l')
    (h : Run (paramSubstWordRaw R p) l b none r b') :
    Run (paramSubstCurly R p .Pound) (.Pound :: l) b (.Subst (.Len .Pound)) r b' := by
  unfold paramSubstCurly
  refine .peekCons ?_
  refine Run.next (.eatNo hl (.bind h ?_))
  rw [if_pos (by simp)]
  exact .pure

theorem curly_pound2 {p q} {l r : List Token} {b b' : B.State} {w}
    (h : Run (paramSubstWordRaw R p) l b w r b') :
    Run (paramSubstCurly R p q) (.Pound :: .Pound :: l) b (.Subst (.RemoveLargestPrefix q w)) r b' := by
  unfold paramSubstCurly
  refine .peekCons ?_
  exact Run.next (.eatYes (.bind h .pure))

theorem body_op {p q t mk c} {l r : List Token} {b b' : B.State} {w} (ht : (t, mk) ∈ substOps B.Command)
    (h : Run (paramSubstWordRaw R p) l b w r b')
    (hq : ¬ (q = .Pound ∧ c = false ∧ (t = .Question ∨ t = .Dash) ∧ w = none))
    {l0} (hl : c = true ∧ l0 = .Colon :: t :: l ∨ c = false ∧ l0 = t :: l) :
    Run (paramSubstBodyRaw R q p) l0 b (.Subst (mk c q w)) r b' := by
  simp only [substOps, List.mem_cons, List.not_mem_nil, or_false, Prod.mk.injEq] at ht
  unfold paramSubstBodyRaw
  refine .bind (a := c) (r := t :: l) (b' := b) ?_ ?_
  · rcases hl with ⟨rfl, rfl⟩ | ⟨rfl, rfl⟩
    · unfold eatMaybe; exact .peekCons (.next .pure)
    · unfold eatMaybe
      refine .peekCons ?_
      rcases ht with ⟨rfl, rfl⟩ | ⟨rfl, rfl⟩ | ⟨rfl, rfl⟩ | ⟨rfl, rfl⟩ <;> exact .pure
  refine .getPos fun _ => .next ?_
  rcases ht with ⟨rfl, rfl⟩ | ⟨rfl, rfl⟩ | ⟨rfl, rfl⟩ | ⟨rfl, rfl⟩
  · refine Run.bind h ?_
    rw [if_neg]
    · exact .pure
    · simp only [reduceCtorEq, or_true, true_and] at hq
      simpa [and_assoc] using hq
  · exact Run.bind h .pure
  · refine Run.bind h ?_
    rw [if_neg]
    · exact .pure
    · simp only [true_or, true_and] at hq
      simpa [and_assoc] using hq
  · exact Run.bind h .pure

theorem body_len {p t q} {l r : List Token} {b b' : B.State}
    (ht : (t, q) ∈ [(Token.Question, (Parameter.Question : DefaultParameter)), (.Dash, .Dash)])
    (h : Run (paramSubstWordRaw R p) l b none r b') :
    Run (paramSubstBodyRaw R .Pound p) (t :: l) b (.Subst (.Len q)) r b' := by
  simp only [List.mem_cons, List.not_mem_nil, or_false, Prod.mk.injEq] at ht
  unfold paramSubstBodyRaw
  rcases ht with ⟨rfl, rfl⟩ | ⟨rfl, rfl⟩
  · refine .eatNo (by simp) (.getPos fun _ => .next ?_)
    exact Run.bind h .pure
  · refine .eatNo (by simp) (.getPos fun _ => .next ?_)
    exact Run.bind h .pure

theorem op_ne {C : Type} {t mk} (ht : (t, mk) ∈ substOps C) : t ≠ .Percent ∧ t ≠ .Pound ∧
    t ∈ [Token.Colon, .Dash, .Equals, .Question, .Plus, .CurlyClose] := by
  simp only [substOps, List.mem_cons, List.not_mem_nil, or_false, Prod.mk.injEq] at ht
  rcases ht with ⟨rfl, rfl⟩ | ⟨rfl, rfl⟩ | ⟨rfl, rfl⟩ | ⟨rfl, rfl⟩ <;> simp

theorem curly_op {p q t mk} {l r : List Token} {b b' : B.State} {w} (ht : (t, mk) ∈ substOps B.Command)
    (h : Run (paramSubstWordRaw R p) l b w r b')
    (hq : ¬ (q = .Pound ∧ (t = .Question ∨ t = .Dash) ∧ w = none)) :
    Run (paramSubstCurly R p q) (t :: l) b (.Subst (mk false q w)) r b' := by
  obtain ⟨h1, h2, h3⟩ := op_ne ht
  exact curly_body h1 h2 (fun _ => h3)
    (body_op ht h (fun h => hq ⟨h.1, h.2.2⟩) (.inr ⟨rfl, rfl⟩))

theorem curly_colonOp {p q t mk} {l r : List Token} {b b' : B.State} {w} (ht : (t, mk) ∈ substOps B.Command)
    (h : Run (paramSubstWordRaw R p) l b w r b') :
    Run (paramSubstCurly R p q) (.Colon :: t :: l) b (.Subst (mk true q w)) r b' :=
  curly_body (by simp) (by simp) (by simp)
    (body_op ht h (by simp) (.inl ⟨rfl, rfl⟩))

/-! ## The word of a substitution -/

theorem substWord_run {p} {l r : List Token} {b b' : B.State} {ws}
    (h : LRun (captureWordsBody R) [] l b ws (.CurlyClose :: r) b') :
    Run (paramSubstWordRaw R p) l b (wordOf ws) r b' := by
  unfold paramSubstWordRaw
  refine .bind h.run (.eatYes ?_)
  rw [← wordOf_eq]
  exact .pure

theorem substWord_empty {p} {r : List Token} {b : B.State} :
    Run (paramSubstWordRaw R p) (.CurlyClose :: r) b none r b := by
  refine substWord_run (ws := []) (.done ?_)
  unfold captureWordsBody
  refine .bind (a := (true, [])) (r := .CurlyClose :: r) (b' := b) (LRun.run (.done ?_)) .pure
  unfold captureLiteralsBody
  exact .peekCons .pure

theorem curly_lenSpecial {p t q} {r : List Token} {b : B.State}
    (h : (t, q) ∈ [(Token.Pound, (Parameter.Pound : DefaultParameter)), (.Question, .Question), (.Dash, .Dash)]) :
    Run (paramSubstCurly R p .Pound) (t :: .CurlyClose :: r) b (.Subst (.Len q)) r b := by
  rw [List.mem_cons] at h
  rcases h with h | h
  · cases h
    exact curly_lenPound (by simp) substWord_empty
  · refine curly_body ?_ ?_ ?_ (body_len h substWord_empty)
    all_goals
      simp only [List.mem_cons, List.not_mem_nil, or_false, Prod.mk.injEq] at h
      rcases h with ⟨rfl, rfl⟩ | ⟨rfl, rfl⟩ <;> simp

end
end Conch.Gram
