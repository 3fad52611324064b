import Verif.PropsParam
import Verif.PropsAst
import Verif.GramErr
/-!
# C29: file descriptors
-/
namespace Conch.Gram
open Conch

/-- A token that stands for its own text in an unquoted word. -/
def PlainToken (t : Token) : Prop := (∃ x, t = .Name x ∨ t = .Literal x) ∨ t ∈ literalTokens

/-- The word of the unquoted tokens `u`. -/
def plainWord (C : Type) (u : List Token) : ComplexWordKind C :=
  Spec.wordWith (u.map fun t => .Simple (.Literal t.asStr))

/-- `FdToks u n`: the unquoted tokens `u` spell a decimal numeral (a leading `+` is accepted) that
fits into `u16`. -/
def FdToks (u : List Token) (n : Nat) : Prop :=
  (∀ t ∈ u, PlainToken t) ∧ Spec.Signed 10 (concatTokens u) n ∧
    (concatTokens u).head? ≠ some '-' ∧ n ≤ 65535

section
variable {B : Builder}

theorem PlainToken.piece {t : Token} (h : PlainToken t) (b : B.State) (r : List Token) :
    Reads .piece b (t :: r) (.Simple (.Literal t.asStr)) r b := by
  rcases h with ⟨x, rfl | rfl⟩ | h
  · exact .name
  · exact .text
  · exact .literal h

theorem plain_pieces {u r : List Token} (h : ∀ t ∈ u, PlainToken t) (he : EndsWord r) (b : B.State) :
    Reads (.pieces none) b (u ++ r) (u.map fun t => .Simple (.Literal t.asStr)) r b := by
  induction u with
  | nil => exact .endWord he
  | cons t u ih =>
    exact .consPiece (by simp) ((h t (by simp)).piece b _) (ih fun t ht => h t (by simp [ht]))

theorem PlainToken.noBlank {t : Token} (h : PlainToken t) (r : List Token) : NoBlank (t :: r) := by
  rcases h with ⟨x, rfl | rfl⟩ | h
  · simp [NoBlank]
  · simp [NoBlank]
  · simp only [literalTokens, List.mem_cons, List.not_mem_nil, or_false] at h
    rcases h with rfl | rfl | rfl | rfl | rfl | rfl | rfl | rfl | rfl | rfl | rfl | rfl <;> simp [NoBlank]

theorem plain_word {bs u r : List Token} (hb : Blanks bs) (hne : u ≠ []) (h : ∀ t ∈ u, PlainToken t)
    (hp : u.head? ≠ some .Pound) (he : EndsWord r) (b : B.State) :
    Reads (.rawWord none) b (bs ++ (u ++ r)) (some (plainWord B.Command u)) r b := by
  obtain ⟨t, u, rfl⟩ := List.exists_cons_of_ne_nil hne
  have := Reads.someWord ⟨bs, rfl, hb, (h t (by simp)).noBlank (u ++ r)⟩
    (by rintro r hr; cases hr; simp at hp) (plain_pieces h he b)
  rwa [Conch.wordOf_eq (by simp)] at this

theorem plainWord_literal (C : Type) {u : List Token} (hne : u ≠ []) :
    LiteralWord (plainWord C u) (concatTokens u) := by
  rcases u with _ | ⟨t, _ | ⟨t', u⟩⟩
  · exact absurd rfl hne
  · have : concatTokens [t] = t.asStr := by simp [concatTokens]
    rw [this]
    exact .single
  · have := LiteralWord.concat (C := C) (ss := (t :: t' :: u).map Token.asStr)
    rw [List.map_map] at this
    exact this

theorem LiteralWord.unique {C : Type} {k : ComplexWordKind C} {s s'} (h : LiteralWord k s)
    (h' : LiteralWord k s') : s = s' := by
  cases h with
  | single => cases h'; rfl
  | @concat ss =>
    generalize hk : ComplexWordKind.Concat (ss.map fun s => WordKind.Simple (SimpleWordKind.Literal s)) = k at h'
    cases h' with
    | single => cases hk
    | @concat ss' =>
      have : ss = ss' := by
        have hk := ComplexWordKind.Concat.inj hk
        exact List.map_injective_iff.2 (fun a b h => by cases h; rfl) hk
      rw [this]

theorem signed_head {s : Str} {n : Int} (h : Spec.Signed 10 s n) :
    ∃ c r, s = c :: r ∧ c ∈ "0123456789+-".toList := by
  have key : ∀ {s ds}, s ≠ [] → Spec.Digits 10 s ds → ∃ c r, s = c :: r ∧ c ∈ "0123456789+-".toList := by
    rintro s ds hne ⟨hl, hd⟩
    obtain ⟨c, r, rfl⟩ := List.exists_cons_of_ne_nil hne
    rcases ds with _ | ⟨d, ds⟩
    · simp at hl
    · refine ⟨c, r, rfl, ?_⟩
      have := (hd (c, d) (by simp))
      have tab : ∀ p ∈ Spec.digitTable, p.2 < 10 → p.1 ∈ "0123456789+-".toList := by decide
      exact tab _ this.1 this.2
  cases h with
  | plain h1 h2 => exact key h1 h2
  | plus h1 h2 => exact ⟨_, _, rfl, by decide⟩
  | minus h1 h2 => exact ⟨_, _, rfl, by decide⟩

theorem FdToks.ne {u n} (h : FdToks u n) : u ≠ [] := by
  rintro rfl
  obtain ⟨c, r, h, -⟩ := signed_head h.2.1
  simp [concatTokens] at h

theorem FdToks.head {u n} (h : FdToks u n) : u.head? ≠ some .Pound := by
  rcases u with _ | ⟨t, u⟩
  · simp
  · rintro ht
    cases ht
    obtain ⟨c, r, h, hc⟩ := signed_head h.2.1
    rw [concatTokens_cons] at h
    cases h
    revert hc; decide

theorem FdToks.fdWord {u n} (C : Type) (h : FdToks u n) : FdWord (plainWord C u) n :=
  ⟨_, plainWord_literal C h.ne, h.2.1, by exact_mod_cast h.2.2.2, h.2.2.1⟩

theorem redirOp_delim : ∀ t ∈ redirOps, t.isWordDelimiter = true := by decide

theorem endsWord_op {t : Token} (h : t ∈ redirOps) (l : List Token) : EndsWord (t :: l) := by
  rintro _ _ e; cases e; exact redirOp_delim t h

theorem noBlank_op {t : Token} (h : t ∈ redirOps) (l : List Token) : NoBlank (t :: l) := by
  simp only [redirOps, List.mem_cons, List.not_mem_nil, or_false] at h
  rcases h with rfl | rfl | rfl | rfl | rfl | rfl | rfl | rfl | rfl <;> simp [NoBlank]

theorem noWord_op {bs : List Token} {t : Token} (hb : Blanks bs) (h : t ∈ redirOps) (l : List Token) (b : B.State) :
    Reads (.rawWord none) b (bs ++ t :: l) none (t :: l) b := by
  refine Reads.someWord (ws := []) ⟨bs, rfl, hb, noBlank_op h l⟩ ?_ (.endWord (endsWord_op h l))
  rintro r e; cases e; revert h; decide

/-- The tokens of a word that is unquoted text. -/
theorem literal_tokens {ss : List Str} {b b' : B.State} {l r : List Token} {ws : List (WordKind B.Command)}
    (hws : ws = ss.map fun s => .Simple (.Literal s))
    (h : Reads (.pieces none) b l ws r b') :
    ∃ u tail, l = u ++ tail ∧ ss = u.map Token.asStr ∧ (∀ t ∈ u, PlainToken t ∨ t = .Dollar) ∧
      (tail = r ∧ EndsWord r ∨ tail = .Backslash :: .Newline :: r ∨ tail = [.Backslash] ∧ r = []) ∧
      b' = b := by
  induction ss generalizing b l ws with
  | nil =>
    subst hws
    cases h with
    | endWord h => exact ⟨[], _, rfl, rfl, by simp, .inl ⟨rfl, h⟩, rfl⟩
    | endEscaped => exact ⟨[], _, rfl, rfl, by simp, .inr (.inl rfl), rfl⟩
    | endBackslash => exact ⟨[], _, rfl, rfl, by simp, .inr (.inr ⟨rfl, rfl⟩), rfl⟩
  | cons s ss ih =>
    subst hws
    cases h with
    | consPiece _ h1 h2 =>
      obtain ⟨u, tail, rfl, rfl, h3, h4, h5⟩ := ih rfl h2
      change Reads .piece b l (.Simple (.Literal s)) _ _ at h1
      generalize hw : (WordKind.Simple (SimpleWordKind.Literal s) : WordKind B.Command) = w at h1
      cases h1 with
      | @literal _ t _ ht =>
        cases hw
        exact ⟨t :: u, tail, rfl, rfl, by
          rintro t' h'; rcases List.mem_cons.1 h' with rfl | h'
          · exact .inl (.inr ht)
          · exact h3 _ h', h4, h5⟩
      | name =>
        cases hw
        exact ⟨.Name s :: u, tail, rfl, rfl, by
          rintro t' h'; rcases List.mem_cons.1 h' with rfl | h'
          · exact .inl (.inl ⟨_, .inl rfl⟩)
          · exact h3 _ h', h4, h5⟩
      | text =>
        cases hw
        exact ⟨.Literal s :: u, tail, rfl, rfl, by
          rintro t' h'; rcases List.mem_cons.1 h' with rfl | h'
          · exact .inl (.inl ⟨_, .inr rfl⟩)
          · exact h3 _ h', h4, h5⟩
      | special ht =>
        cases hw
        simp [specialTokens] at ht
      | singleQuoted => cases hw
      | doubleQuoted => cases hw
      | escaped => cases hw
      | pieceBacktick h =>
        cases hw
        nomatch h
      | pieceParam h =>
        cases hw
        generalize hw : SimpleWordKind.Literal s = w at h
        cases h with
        | loneDollar =>
          cases hw
          exact ⟨.Dollar :: u, tail, rfl, rfl, by
            rintro t' h'; rcases List.mem_cons.1 h' with rfl | h'
            · exact .inr rfl
            · exact h3 _ h', h4, h5⟩
        | braced _ h => subst hw; nomatch h
        | _ => cases hw

theorem fdWord_tokens {b b' : B.State} {l r : List Token} {k : ComplexWordKind B.Command} {n}
    (h : Reads (.rawWord none) b l (some k) r b') (hk : FdWord k n) :
    ∃ bs u tail, l = bs ++ (u ++ tail) ∧ Blanks bs ∧ FdToks u n ∧
      (tail = r ∧ EndsWord r ∨ tail = .Backslash :: .Newline :: r ∨ tail = [.Backslash] ∧ r = []) ∧
      b' = b := by
  generalize hw : some k = w at h
  cases h with
  | noWord => cases hw
  | @someWord _ _ _ l' ws _ _ hs _ hp =>
    obtain ⟨t, h1, h2, h3, h4⟩ := hk
    have key : ∃ ss : List Str, ws = (ss.map fun s => .Simple (.Literal s)) ∧ ss.flatten = t := by
      cases h1 with
      | single =>
        refine ⟨[t], ?_, by simp⟩
        rcases ws with _ | ⟨w, _ | ⟨w', ws⟩⟩ <;> simp [wordOf] at hw
        simp [hw]
      | @concat ss =>
        refine ⟨ss, ?_, rfl⟩
        rcases ws with _ | ⟨w, _ | ⟨w', ws⟩⟩ <;> simp [wordOf] at hw
        exact hw.symm
    obtain ⟨ss, rfl, rfl⟩ := key
    obtain ⟨u, tail, rfl, rfl, h5, h6, h7⟩ := literal_tokens rfl hp
    obtain ⟨bs, rfl, hb, -⟩ := hs
    refine ⟨bs, u, tail, rfl, hb, ⟨fun t ht => ?_, h2, h4, by exact_mod_cast h3⟩, h6, h7⟩
    rcases h5 t ht with h | rfl
    · exact h
    · exfalso
      have hc : '$' ∈ (u.map Token.asStr).flatten := List.mem_flatten.2 ⟨['$'], List.mem_map.2 ⟨_, ht, rfl⟩, by simp⟩
      have dig : ∀ {s ds}, Spec.Digits 10 s ds → '$' ∉ s := by
        rintro s ds ⟨hl, hd⟩ hc
        obtain ⟨i, hi, he⟩ := List.getElem_of_mem hc
        have := hd (s[i], ds[i]) (by
          refine List.mem_iff_getElem.2 ⟨i, by simp; omega, by simp⟩)
        rw [he] at this
        revert this
        simp only [Spec.digitTable]
        intro this
        have tab : ∀ p ∈ Spec.digitTable, p.1 ≠ '$' := by decide
        exact tab _ this.1 rfl
      generalize (u.map Token.asStr).flatten = s at h2 hc
      generalize (n : Int) = m at h2
      cases h2 with
      | plain _ h => exact dig h hc
      | plus _ h => simp at hc; exact dig h hc
      | minus _ h => simp at hc; exact dig h hc

end

/-! ## The theorems -/

section
variable {B : Builder}

/-- **C29.** An unquoted decimal number that fits into `u16`, directly before a redirection
operator, is the descriptor of the redirection. -/
theorem _root_.Conch.C29_number_is_descriptor (s : PSt CIter B) (bs u l : List Token) (t : Token) (n : Nat)
    (a : B.Redirect) (r : List Token) (b' : B.State)
    (hs : s.tokens = bs ++ (u ++ t :: l)) (hb : Blanks bs) (hu : FdToks u n) (ht : t ∈ redirOps)
    (h : Reads (.redirTail (some n)) s.b (t :: l) a r b') :
    Parses .redirect s (some (.inl a)) r b' := by
  refine C31_parser_accepts_grammar .redirect trivial _ _ _ _ ?_
  show Reads .redirect s.b s.tokens _ _ _
  rw [hs]
  exact .redirectFd (plain_word hb hu.ne hu.1 hu.head (endsWord_op ht l) s.b) (hu.fdWord _) ht h

/-- **C29.** An operator without a word directly before it has no descriptor. -/
theorem _root_.Conch.C29_no_descriptor (s : PSt CIter B) (bs l : List Token) (t : Token)
    (a : B.Redirect) (r : List Token) (b' : B.State)
    (hs : s.tokens = bs ++ t :: l) (hb : Blanks bs) (ht : t ∈ redirOps)
    (h : Reads (.redirTail none) s.b (t :: l) a r b') :
    Parses .redirect s (some (.inl a)) r b' := by
  refine C31_parser_accepts_grammar .redirect trivial _ _ _ _ ?_
  show Reads .redirect s.b s.tokens _ _ _
  rw [hs]
  exact .redirect (noWord_op hb ht l s.b) ht h

/-- **C29.** Any other word, and a number that is not directly before an operator, is returned as a
word. -/
theorem _root_.Conch.C29_other_words (s : PSt CIter B) (k : ComplexWordKind B.Command) (w : B.Word)
    (r : List Token) (b1 b' : B.State) (h : Reads (.rawWord none) s.b s.tokens (some k) r b1)
    (hk : (∃ n, FdWord k n) → ∀ t r', r = t :: r' → t ∉ redirOps) (hw : Calls (.word k) b1 w b') :
    Parses .redirect s (some (.inr w)) r b' :=
  C31_parser_accepts_grammar .redirect trivial _ _ _ _ (Reads.redirectWord h hk hw)

/-- **C29.** Conversely: a redirection is returned only in these two cases. (A removed escaped
newline may stand between the number and the operator.) -/
theorem _root_.Conch.C29_only_numbers_are_descriptors (s : PSt CIter B) (a : B.Redirect) (r : List Token) (b' : B.State)
    (h : Parses .redirect s (some (.inl a)) r b') :
    ∃ bs u esc t l fd, s.tokens = bs ++ (u ++ (esc ++ t :: l)) ∧ Blanks bs ∧ t ∈ redirOps ∧
      (esc = [] ∨ esc = [.Backslash, .Newline]) ∧
      (fd = none ∧ u = [] ∧ esc = [] ∨ ∃ n, fd = some n ∧ FdToks u n) ∧
      Reads (.redirTail fd) s.b (t :: l) a r b' := by
  have h := C31_parser_within_grammar .redirect trivial s _ _ _ h
  change Reads .redirect s.b s.tokens (some (.inl a)) r b' at h
  generalize s.tokens = l0 at h
  generalize s.b = b at h
  cases h with
  | redirect h1 ht h2 =>
    generalize hw : (none : Option (ComplexWordKind B.Command)) = w at h1
    cases h1 with
    | noWord => exact absurd ht (by decide)
    | @someWord _ _ _ _ ws _ _ hs _ hp =>
      have : ws = [] := by rcases ws with _ | ⟨w, _ | ⟨w', ws⟩⟩ <;> simp [wordOf] at hw ⊢
      subst this
      obtain ⟨bs, rfl, hb, hn⟩ := hs
      cases hp with
      | endWord he => exact ⟨bs, [], [], _, _, none, rfl, hb, ht, .inl rfl, .inl ⟨rfl, rfl, rfl⟩, h2⟩
      | endEscaped => exact absurd rfl (hn.2 _)
  | redirectFd h1 hk ht h2 =>
    obtain ⟨bs, u, tail, rfl, hb, hu, htail, rfl⟩ := fdWord_tokens h1 hk
    rcases htail with ⟨rfl, -⟩ | rfl | ⟨-, h⟩
    · exact ⟨bs, u, [], _, _, _, rfl, hb, ht, .inl rfl, .inr ⟨_, rfl, hu⟩, h2⟩
    · exact ⟨bs, u, [.Backslash, .Newline], _, _, _, rfl, hb, ht, .inr rfl, .inr ⟨_, rfl, hu⟩, h2⟩
    · cases h

/-- **C29.** A word is returned only if it is not a descriptor. -/
theorem _root_.Conch.C29_words_are_no_descriptors (s : PSt CIter B) (w : B.Word) (r : List Token) (b' : B.State)
    (h : Parses .redirect s (some (.inr w)) r b') :
    ∃ k b1, Reads (.rawWord none) s.b s.tokens (some k) r b1 ∧ Calls (.word k) b1 w b' ∧
      ((∃ n, FdWord k n) → ∀ t r', r = t :: r' → t ∉ redirOps) := by
  have h := C31_parser_within_grammar .redirect trivial s _ _ _ h
  change Reads .redirect s.b s.tokens (some (.inr w)) r b' at h
  generalize s.tokens = l0 at h
  generalize s.b = b at h
  cases h with
  | redirectWord h1 h2 h3 => exact ⟨_, _, h1, h3, h2⟩

/-- The descriptor of a redirection. -/
def _root_.Conch.Spec.fdOf {W : Type} : RedirectKind W → Option Nat
  | .Read fd _ | .Write fd _ | .ReadWrite fd _ | .Append fd _ | .Clobber fd _ | .Heredoc fd _
  | .DupRead fd _ | .DupWrite fd _ => fd

/-- The operator of a redirection. -/
def _root_.Conch.Spec.opOf {W : Type} : RedirectKind W → List Token
  | .Read .. => [.Less]
  | .Write .. => [.Great]
  | .ReadWrite .. => [.LessGreat]
  | .Append .. => [.DGreat]
  | .Clobber .. => [.Clobber]
  | .Heredoc .. => [.DLess, .DLessDash]
  | .DupRead .. => [.LessAnd]
  | .DupWrite .. => [.GreatAnd]

/-- What the tail of a redirection passes to the builder. -/
theorem redirTail_builder {fd : Option Nat} {b b' : B.State} {t : Token} {l r : List Token}
    {a : B.Redirect} (h : Reads (.redirTail fd) b (t :: l) a r b') :
    ∃ kind b1, Calls (.redirect kind) b1 a b' ∧ Spec.fdOf kind = fd ∧ t ∈ Spec.opOf kind := by
  cases h with
  | redirPath hm _ _ _ hc =>
    simp only [pathOps, List.mem_cons, List.not_mem_nil, or_false, Prod.mk.injEq] at hm
    rcases hm with ⟨rfl, rfl⟩ | ⟨rfl, rfl⟩ | ⟨rfl, rfl⟩ | ⟨rfl, rfl⟩ | ⟨rfl, rfl⟩ <;>
      exact ⟨_, _, hc, rfl, by simp [Spec.opOf]⟩
  | redirDupDash hm _ _ _ hc =>
    simp only [dupOps, List.mem_cons, List.not_mem_nil, or_false, Prod.mk.injEq] at hm
    rcases hm with ⟨rfl, rfl⟩ | ⟨rfl, rfl⟩ <;> exact ⟨_, _, hc, rfl, by simp [Spec.opOf]⟩
  | redirDup hm _ _ _ _ _ hc =>
    simp only [dupOps, List.mem_cons, List.not_mem_nil, or_false, Prod.mk.injEq] at hm
    rcases hm with ⟨rfl, rfl⟩ | ⟨rfl, rfl⟩ <;> exact ⟨_, _, hc, rfl, by simp [Spec.opOf]⟩
  | redirHeredoc h =>
    cases h with
    | heredocQuoted ht _ _ _ _ _ _ _ hc => exact ⟨_, _, hc, rfl, by simpa [Spec.opOf] using ht⟩
    | heredoc ht _ _ _ _ _ _ _ _ hc => exact ⟨_, _, hc, rfl, by simpa [Spec.opOf] using ht⟩

/-- The target of `<&` and `>&`. -/
theorem redirTail_dup {fd : Option Nat} {b b' : B.State} {t : Token} {l r : List Token}
    {a : B.Redirect} (h : Reads (.redirTail fd) b (t :: l) a r b') (ht : t = .LessAnd ∨ t = .GreatAnd) :
    (Skip l (.Dash :: r) ∧ EndsWord r) ∨
      ∃ l' k b1, Skip l l' ∧ Reads (.rawWord none) b l' (some k) r b1 ∧ NumericWord k := by
  cases h with
  | redirPath hm =>
    simp only [pathOps, List.mem_cons, List.not_mem_nil, or_false, Prod.mk.injEq] at hm
    rcases hm with ⟨rfl, rfl⟩ | ⟨rfl, rfl⟩ | ⟨rfl, rfl⟩ | ⟨rfl, rfl⟩ | ⟨rfl, rfl⟩ <;> simp at ht
  | redirDupDash _ hs he => exact .inl ⟨hs, he⟩
  | redirDup _ hs _ h hn => exact .inr ⟨_, _, _, hs, h, hn⟩
  | redirHeredoc h =>
    cases h with
    | heredocQuoted h => rcases h with rfl | rfl <;> simp at ht
    | heredoc h => rcases h with rfl | rfl <;> simp at ht

/-- **C29.** The redirection that `redirect` returns was made by the builder from a kind with the
operator that was read, and with the descriptor whose numeral was read right before it (if any). -/
theorem _root_.Conch.C29_builder_gets_descriptor (s : PSt CIter B) (a : B.Redirect) (r : List Token)
    (b' : B.State) (h : Parses .redirect s (some (.inl a)) r b') :
    ∃ bs u esc t l kind b1, s.tokens = bs ++ (u ++ (esc ++ t :: l)) ∧ Blanks bs ∧
      (esc = [] ∨ esc = [.Backslash, .Newline]) ∧
      Calls (.redirect kind) b1 a b' ∧ t ∈ Spec.opOf kind ∧
      (Spec.fdOf kind = none ∧ u = [] ∧ esc = [] ∨ ∃ n, Spec.fdOf kind = some n ∧ FdToks u n) := by
  obtain ⟨bs, u, esc, t, l, fd, h1, h2, -, h4, h5, h6⟩ := C29_only_numbers_are_descriptors s a r b' h
  obtain ⟨kind, b1, h7, rfl, h9⟩ := redirTail_builder h6
  exact ⟨bs, u, esc, t, l, kind, b1, h1, h2, h4, h7, h9, h5⟩

/-- **C29.** The redirection that `redirect` returns was made by the builder, and if its operator is
`<&` or `>&`, then what followed the operator was `-` on its own, or a word that could be numeric. -/
theorem _root_.Conch.C29_dup_target (s : PSt CIter B) (a : B.Redirect) (r : List Token)
    (b' : B.State) (h : Parses .redirect s (some (.inl a)) r b') :
    ∃ pre t l kind b1, s.tokens = pre ++ t :: l ∧ Calls (.redirect kind) b1 a b' ∧
      t ∈ Spec.opOf kind ∧ (t = .LessAnd ∨ t = .GreatAnd →
        (Skip l (.Dash :: r) ∧ EndsWord r) ∨
        ∃ l' k b1, Skip l l' ∧ Reads (.rawWord none) s.b l' (some k) r b1 ∧ NumericWord k) := by
  obtain ⟨bs, u, esc, t, l, fd, h1, h2, -, h4, h5, h6⟩ := C29_only_numbers_are_descriptors s a r b' h
  obtain ⟨kind, b1, h7, rfl, h9⟩ := redirTail_builder h6
  exact ⟨bs ++ u ++ esc, t, l, kind, b1, by simp [h1], h7, h9, redirTail_dup h6⟩

/-- **C29.** Any other target is reported as a bad descriptor, up to the end of that word. -/
theorem _root_.Conch.C29_bad_descriptor (s : PSt CIter B) (bs u l l' : List Token) (t : Token)
    (k : ComplexWordKind B.Command) (r : List Token) (b' : B.State)
    (hs : s.tokens = bs ++ (u ++ t :: l)) (hb : Blanks bs) (hu : u = [] ∨ ∃ n, FdToks u n)
    (ht : t = .LessAnd ∨ t = .GreatAnd) (hl : Skip l l') (hd : ∀ r, l' = .Dash :: r → ¬ EndsWord r)
    (hk : Reads (.rawWord none) s.b l' (some k) r b') (hn : ¬ NumericWord k) :
    ∃ p, FailsWith .redirect s (fun _ q => .BadFd p q) r b' := by
  refine failsMid_of (E := fun p q => .BadFd p q) (run_failsMid ?_)
  have htr : t ∈ redirOps := by rcases ht with rfl | rfl <;> decide
  rw [hs]
  have hlen := hl.le
  generalize hN : (bs ++ (u ++ t :: l)).length + 1 = N
  simp only [List.length_append, List.length_cons] at hN
  have key : ∀ fd : Option (Nat × ComplexWordKind B.Command),
      FailsMid (redirectFd (Rec.fix N) fd) (t :: l) s.b (fun p q => .BadFd p q) r b' := by
    intro fd
    unfold redirectFd
    refine .peek ?_
    rw [if_pos (by rcases ht with rfl | rfl <;> rfl)]
    refine FailsMid.next (.left ?_)
    have hdup : FailsMid (getDupPath (Rec.fix N)) l' s.b (fun p q => .BadFd p q) r b' := by
      unfold getDupPath
      refine .bind (Run.peekNoToken (by simp) (by simp [Token.isWs]) (.refl hl.noBlank) ?_) ?_
      · intro t ht; rw [List.mem_singleton] at ht; subst ht; exact hd
      · refine Fails.mid (Fails.getPos fun p => ?_)
        unfold wordRaw
        refine .bind (Gram.complete hk N (by simp only [NT.Fits]; omega)) ?_
        have : ¬ k.couldBeNumeric = true := fun h => hn ((numeric_iff k).1 h)
        dsimp only
        rw [if_neg this]
        exact .failPos
    unfold redirectTail
    refine .bind (.skip hl) ?_
    rcases ht with rfl | rfl <;> exact .left hdup
  unfold redirect wordRaw
  rcases hu with rfl | ⟨n, hu⟩
  · exact .bind (Gram.complete (noWord_op hb htr l s.b) N (by simp only [NT.Fits]; simp; omega)) (key none)
  · refine .bind (Gram.complete (plain_word hb hu.ne hu.1 hu.head (endsWord_op htr l) s.b) N
      (by simp only [NT.Fits]; simp; omega)) ?_
    dsimp only
    rw [(asNum_iff _ n).2 (hu.fdWord _)]
    exact key _

end
end Conch.Gram

/-! ## On text, with the default builder -/

namespace Conch
open Spec Gram

/-- The operators that take a path, with the trees they make. -/
def Spec.pathRedirects : List (String × Token × (Option Nat → TopLevelWord Str → Redirect (TopLevelWord Str))) :=
  [("<", .Less, .Read), (">", .Great, .Write), (">>", .DGreat, .Append), (">|", .Clobber, .Clobber),
   ("<>", .LessGreat, .ReadWrite)]

theorem lex_op (cc : CharClass) (hs : cc.Sane) {t : Token} {s : Str}
    (h : (t.asStr, t) ∈ operators) (hb : t ≠ .Backslash)
    (he : ∀ c, s.head? = some c → ∀ p ∈ operators, ¬ t.asStr ++ [c] <+: p.1) :
    lex cc (t.asStr ++ s) = t :: lex cc s := by
  have h0 : isVar t = false := by
    have : ∀ p ∈ operators, isVar p.2 = false := by decide
    exact this _ h
  refine lex_cons hs ?_ hb fun c hc => ?_
  · cases t <;> first | exact .inl h | cases h0
  · have := he c hc
    cases t <;> first | exact this | cases h0

theorem quote_ends : ∀ q ∈ operators, ∀ p ∈ operators, ¬ (q.1 ++ ['\'']).isPrefixOf p.1 := by decide

/-- An operator before a quoted word. -/
theorem lex_op_quote (cc : CharClass) (hs : cc.Sane) {t : Token} (h : (t.asStr, t) ∈ operators) (s rest : Str)
    (hb : t ≠ .Backslash) :
    lex cc (t.asStr ++ (shellQuote s ++ rest)) = t :: lex cc (shellQuote s ++ rest) := by
  refine lex_op cc hs h hb fun c hc p hp hpre => ?_
  simp only [shellQuote, List.append_assoc, List.cons_append, List.nil_append, List.head?_cons, Option.some.injEq] at hc
  subst hc
  exact quote_ends _ h p hp (by simpa using hpre)

/-- A decimal number before an operator. -/
theorem lex_digits (cc : CharClass) (hs : cc.Sane) (n : Nat) {s : Str}
    (h : ∀ c, s.head? = some c → opStart c) :
    lex cc (natDigits n ++ s) = .Literal (natDigits n) :: lex cc s :=
  lex_cons hs (t := .Literal (natDigits n)) (lit_shape hs n) (by simp) fun c hc hp => hp.2.1 (h c hc)

/-- A quoted word, read by the grammar. -/
theorem quoted_raw (cc : CharClass) (hs : cc.Sane) {B : Builder} (b : B.State) (s rest : Str)
    (hr : Gram.EndsWord (lex cc rest)) :
    ∃ ws, Quoted (C := B.Command) ws s ∧ Gram.NoBlank (lex cc (shellQuote s ++ rest)) ∧
      Reads (.rawWord none) b (lex cc (shellQuote s ++ rest)) (some (wordWith ws)) (lex cc rest) b := by
  obtain ⟨ws, r, hq, hl, hread⟩ := quoted_reads hs b rest hr s
  have hn : Gram.NoBlank (.SingleQuote :: r) := by simp [Gram.NoBlank]
  refine ⟨ws, hq, hl ▸ hn, ?_⟩
  rw [hl]
  have := Reads.someWord (.refl hn) (by simp) hread
  rwa [wordOf_eq hq.ne_nil] at this

theorem fdToks_digits {n : Nat} (h : n ≤ 65535) : FdToks [.Literal (natDigits n)] n := by
  obtain ⟨ds, h1, h2⟩ := digits_natDigits n
  have e : concatTokens [.Literal (natDigits n)] = natDigits n := by simp [concatTokens, Token.asStr]
  refine ⟨?_, ?_, ?_, h⟩
  · intro t ht; rw [List.mem_singleton] at ht; subst ht; exact .inl ⟨_, .inr rfl⟩
  · rw [e]
    have := Signed.plain (Nat.toDigits_ne_nil (n := n)) h1
    rwa [h2] at this
  · rw [e]
    intro hh
    have := natDigits_isDigit (n := n) (c := '-') (List.mem_of_mem_head? hh)
    revert this; decide

theorem pathRedirects_ops : ∀ x ∈ pathRedirects, x.1.toList = x.2.1.asStr ∧
    (x.2.1.asStr, x.2.1) ∈ operators ∧ x.2.1 ≠ .Backslash ∧ x.2.1 ∈ redirOps ∧
    ∃ mk, (x.2.1, mk) ∈ pathOps (TopLevelWord Str) ∧ ∀ fd w, Core.mapRedirect (mk fd w) = x.2.2 fd w := by
  have h : ∀ t ∈ [Token.Less, .Great, .DGreat, .Clobber, .LessGreat],
    (t.asStr, t) ∈ operators ∧ t ≠ .Backslash ∧ t ∈ redirOps := by decide
  intro x hx
  simp only [pathRedirects, List.mem_cons, List.not_mem_nil, or_false] at hx
  rcases hx with rfl | rfl | rfl | rfl | rfl
  · exact ⟨rfl, (h .Less (by simp)).1, (h .Less (by simp)).2.1, (h .Less (by simp)).2.2, .Read, by simp [pathOps], fun _ _ => rfl⟩
  · exact ⟨rfl, (h .Great (by simp)).1, (h .Great (by simp)).2.1, (h .Great (by simp)).2.2, .Write, by simp [pathOps], fun _ _ => rfl⟩
  · exact ⟨rfl, (h .DGreat (by simp)).1, (h .DGreat (by simp)).2.1, (h .DGreat (by simp)).2.2, .Append, by simp [pathOps], fun _ _ => rfl⟩
  · exact ⟨rfl, (h .Clobber (by simp)).1, (h .Clobber (by simp)).2.1, (h .Clobber (by simp)).2.2, .Clobber, by simp [pathOps], fun _ _ => rfl⟩
  · exact ⟨rfl, (h .LessGreat (by simp)).1, (h .LessGreat (by simp)).2.1, (h .LessGreat (by simp)).2.2, .ReadWrite, by simp [pathOps], fun _ _ => rfl⟩

/-- Operator and quoted path. -/
theorem path_text (cc : CharClass) (hs : cc.Sane) (op) (hop : op ∈ pathRedirects) (path rest : Str)
    (hr : Gram.EndsWord (lex cc rest)) (fd : Option Nat) :
    ∃ l w, lex cc (op.1.toList ++ (shellQuote path ++ rest)) = op.2.1 :: l ∧
      Reads (B := DefaultBuilder) (.redirTail fd) () (op.2.1 :: l) (op.2.2 fd w) (lex cc rest) () ∧
      quotedText w = some path := by
  obtain ⟨h1, h2, h3, h4, mk, h5, h6⟩ := pathRedirects_ops op hop
  obtain ⟨ws, hq, hb, hw⟩ := quoted_raw cc hs (B := DefaultBuilder) () path rest hr
  refine ⟨_, _, by rw [h1, lex_op_quote cc hs h2 _ _ h3], ?_, quoted_word hq⟩
  refine Reads.redirPath (mk := mk) h5 (.refl hb) hw (b'' := ()) rfl ?_
  show (BOut.ok (Core.mapRedirect (mk fd _)), ()) = _
  rw [h6]

theorem head_opStart {t : Token} (h : (t.asStr, t) ∈ operators) (s : Str) (c : Char)
    (hc : (t.asStr ++ s).head? = some c) : opStart c := by
  refine ⟨_, h, ?_⟩
  have hne : ∀ p ∈ operators, p.1 ≠ [] := by decide
  have := hne _ h
  obtain ⟨d, r, hd⟩ := List.exists_cons_of_ne_nil this
  simp only at hd
  rw [hd] at hc ⊢
  exact hc

/-- **C29.** A decimal number up to 65535 directly before a redirection operator is the descriptor,
and the quoted word after it is the path: for every number, every path and whatever follows. -/
theorem C29_descriptor_text (cc : CharClass) (hs : cc.Sane) (n : Nat) (hn : n ≤ 65535) (op)
    (hop : op ∈ pathRedirects) (path rest : Str) (hr : Gram.EndsWord (lex cc rest)) :
    ∃ w, Parses (B := DefaultBuilder) .redirect
      (parserOn (lex cc (natDigits n ++ (op.1.toList ++ (shellQuote path ++ rest)))) ())
      (some (.inl (op.2.2 (some n) w))) (lex cc rest) () ∧ quotedText w = some path := by
  obtain ⟨h1, h2, -, h4, -⟩ := pathRedirects_ops op hop
  obtain ⟨l, w, hl, hread, hq⟩ := path_text cc hs op hop path rest hr (some n)
  refine ⟨w, ?_, hq⟩
  refine C29_number_is_descriptor _ [] [.Literal (natDigits n)] l op.2.1 n _ _ _ ?_ .nil (fdToks_digits hn) h4 hread
  rw [PSt.tokens, parserOn_rest, lex_digits cc hs n (by rw [h1]; exact fun c => head_opStart h2 _ c), hl]
  rfl

/-- **C29.** Without a number there is no descriptor. -/
theorem C29_no_descriptor_text (cc : CharClass) (hs : cc.Sane) (op)
    (hop : op ∈ pathRedirects) (path rest : Str) (hr : Gram.EndsWord (lex cc rest)) :
    ∃ w, Parses (B := DefaultBuilder) .redirect
      (parserOn (lex cc (op.1.toList ++ (shellQuote path ++ rest))) ())
      (some (.inl (op.2.2 none w))) (lex cc rest) () ∧ quotedText w = some path := by
  obtain ⟨h1, h2, -, h4, -⟩ := pathRedirects_ops op hop
  obtain ⟨l, w, hl, hread, hq⟩ := path_text cc hs op hop path rest hr none
  refine ⟨w, ?_, hq⟩
  refine C29_no_descriptor _ [] l op.2.1 _ _ _ ?_ .nil h4 hread
  rw [PSt.tokens, parserOn_rest, hl]
  rfl

/-- The metacharacters of the shell: they end an unquoted word. -/
def Spec.metachars : Str := " \n;&|()<>".toList

theorem meta_start {c : Char} (h : c ∈ Spec.metachars) : c = ' ' ∨ opStart c := by
  rw [opStart_iff]
  revert h
  revert c
  decide

/-- A source that is empty or starts with a metacharacter: every word before it ends there. -/
theorem lex_metachar (cc : CharClass) (hs : cc.Sane) {rest : Str}
    (h : ∀ c, rest.head? = some c → c ∈ Spec.metachars) :
    Gram.EndsWord (lex cc rest) ∧
      ((∀ c, rest.head? = some c → c ≠ '<' ∧ c ≠ '>') → ∀ t r, lex cc rest = t :: r → t ∉ redirOps) := by
  cases rest with
  | nil =>
    have : lex cc [] = [] := (C03_tokens_iff_grammar _ _ _).2 .nil
    rw [this]
    exact ⟨(by intro _ _ h; cases h), (by intro _ _ _ h; cases h)⟩
  | cons c rest =>
    replace h := h c rfl
    have hops : ∀ p ∈ operators, ∀ c ∈ Spec.metachars, p.1.head? = some c → p.2.isWordDelimiter = true ∧
        (c ≠ '<' → c ≠ '>' → p.2 ∉ redirOps) := by decide
    rcases lexes_cons_inv (lex_lexes cc (c :: rest)) with ⟨rfl, -⟩ | ⟨_, _, _, _, rfl, -⟩ |
      ⟨o, s, t, ts, h1, h2, h3, h4, -⟩ | ⟨_, _, _, -, -, -, -, h3, -⟩ | ⟨_, _, _, h1, -⟩ | ⟨_, _, _, h1, -⟩
    · exact absurd h (by decide)
    · exact absurd h (by decide)
    · have hc : o.head? = some c := by
        obtain ⟨d, ds, r, rfl, -, h⟩ := longestOp_head h4
        cases h; rfl
      have := hops _ h4.1 c h hc
      rw [h3]
      refine ⟨?_, ?_⟩
      · rintro _ _ e; cases e; exact this.1
      · rintro h' _ _ e; cases e; exact this.2 (h' c rfl).1 (h' c rfl).2
    · rw [h3]
      refine ⟨?_, ?_⟩
      · rintro _ _ e; cases e; rfl
      · rintro h' _ _ e; cases e; simp [redirOps]
    · exfalso
      have := meta_start h
      rcases this with rfl | this
      · have := hs.space; exact absurd this (by simp [h1.2.2])
      · exact h1.2.1 this
    · exfalso
      have := meta_start h
      rcases this with rfl | this
      · have := hs.space; exact absurd this (by simp [h1.2.2])
      · exact h1.2.1 this

theorem natDigits_magnitude (n : Nat) : magnitude 10 (natDigits n) = some n := by
  obtain ⟨ds, h4, h5⟩ := digits_natDigits n
  exact (magnitude_iff _ _ _).2 ⟨Nat.toDigits_ne_nil, ds, h4, h5.symm⟩

theorem fdWord_digits {C : Type} {n m : Nat} (h : FdWord (C := C) (.Single (.Simple (.Literal (natDigits n)))) m) :
    m = n ∧ n ≤ 65535 := by
  have key : parseUnsigned 10 65535 (natDigits n) = some m := (asNum_iff _ _).2 h
  obtain ⟨hm, ds, r, hr, hne, hd, he⟩ := (parseUnsigned_iff _ _ _ _).1 key
  rcases hr with hr | hr
  · have h1 := (magnitude_iff _ _ _).2 ⟨hne, ds, hd, he⟩
    rw [← hr, natDigits_magnitude] at h1
    cases h1
    exact ⟨rfl, hm⟩
  · exfalso
    have : '+' ∈ natDigits n := by rw [hr]; simp
    exact absurd (natDigits_isDigit this) (by decide)

/-- **C29.** A number above 65535, or one that no `<` or `>` follows directly, is a word like any
other; nothing after it is read. -/
theorem C29_other_number_text (cc : CharClass) (hs : cc.Sane) (n : Nat) (rest : Str)
    (hr : ∀ c, rest.head? = some c → c ∈ Spec.metachars)
    (h : 65535 < n ∨ ∀ c, rest.head? = some c → c ≠ '<' ∧ c ≠ '>') :
    Parses (B := DefaultBuilder) .redirect (parserOn (lex cc (natDigits n ++ rest)) ())
      (some (.inr (.mk (.Single (.Simple (.Literal (natDigits n))))))) (lex cc rest) () := by
  obtain ⟨h1, h2⟩ := lex_metachar cc hs hr
  have hl : lex cc (natDigits n ++ rest) = .Literal (natDigits n) :: lex cc rest := by
    refine lex_cons hs (t := .Literal (natDigits n)) (lit_shape hs n) (by simp) fun c hc hp => ?_
    have := meta_start (hr c hc)
    rcases this with rfl | this
    · have := hs.space; exact absurd this (by simp [hp.2.2])
    · exact hp.2.1 this
  refine C29_other_words (B := DefaultBuilder) _ (.Single (.Simple (.Literal (natDigits n)))) _ _ () () ?_ ?_ ?_
  · rw [PSt.tokens, parserOn_rest, hl]
    exact Gram.plain_word (B := DefaultBuilder) (bs := []) (u := [.Literal (natDigits n)]) .nil (by simp)
      (by intro t ht; rw [List.mem_singleton] at ht; subst ht; exact .inl ⟨_, .inr rfl⟩) (by simp) h1 ()
  · rintro ⟨m, hm⟩
    have := fdWord_digits hm
    exact h2 (h.resolve_left (by omega))
  · rfl

/-- `2>'a b' c`: the hypotheses of `C29_descriptor_text` hold. -/
example (cc : CharClass) (hs : cc.Sane) :
    ∃ w, Parses (B := DefaultBuilder) .redirect
      (parserOn (lex cc (natDigits 2 ++ (">".toList ++ (shellQuote "a b".toList ++ " c".toList)))) ())
      (some (.inl (.Write (some 2) w))) (lex cc " c".toList) () ∧ quotedText w = some "a b".toList :=
  C29_descriptor_text cc hs 2 (by decide) (">", .Great, .Write) (by simp [pathRedirects]) _ _
    (lex_metachar cc hs (by decide)).1

/-- `70000>x`: the number is a word, the operator is left. -/
example (cc : CharClass) (hs : cc.Sane) :
    Parses (B := DefaultBuilder) .redirect (parserOn (lex cc (natDigits 70000 ++ ">x".toList)) ())
      (some (.inr (.mk (.Single (.Simple (.Literal (natDigits 70000))))))) (lex cc ">x".toList) () :=
  C29_other_number_text cc hs 70000 _ (by decide) (.inl (by decide))

end Conch
