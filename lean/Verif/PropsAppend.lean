import Verif.AppJoin
import Verif.Alike
import Verif.PropsAssign
import Verif.PropsOps
/-!
# C63: words, redirections and assignments can be added to a command
-/
namespace Conch
open Spec Gram

/-! ## Specification -/

/-- The text is a word: `Parser::word` reads it to its end. -/
def Spec.IsWord (cc : CharClass) (p : Str) (w : SWord) : Prop :=
  Neat cc p ∧ Parses (B := DefaultBuilder) .word (parserOn (lex cc p) ()) (some w) [] ()

/-- The text is a redirection: `Parser::redirect` reads it to its end. -/
def Spec.IsRedirect (cc : CharClass) (p : Str) (r : Redirect SWord) : Prop :=
  Neat cc p ∧ Parses (B := DefaultBuilder) .redirect (parserOn (lex cc p) ()) (some (.inl r)) [] ()

/-- The text is an argument: a word or a redirection. -/
inductive Spec.IsArg (cc : CharClass) (q : Str) : RedirectOrCmdWord (Redirect SWord) SWord → Prop
  | word {w} : IsWord cc q w → IsArg cc q (.CmdWord w)
  | redirect {x} : IsRedirect cc q x → IsArg cc q (.Redirect x)

/-- Some arguments, with blanks before each of them. -/
inductive Spec.Args (cc : CharClass) : Str → List (RedirectOrCmdWord (Redirect SWord) SWord) → Prop
  | nil : Args cc [] []
  | cons {bl q s a as} : SomeBlanks cc bl → IsArg cc q a → Args cc s as → Args cc (bl ++ q ++ s) (a :: as)

/-- The command with one more redirection. -/
def Spec.withRedirect (r : Redirect SWord) : SPipeable → SPipeable
  | .Simple ⟨vs, []⟩ => .Simple ⟨vs ++ [.Redirect r], []⟩
  | .Simple ⟨vs, ws⟩ => .Simple ⟨vs, ws ++ [.Redirect r]⟩
  | .Compound ⟨k, io⟩ => .Compound ⟨k, io ++ [r]⟩
  | .FunctionDef x ⟨k, io⟩ => .FunctionDef x ⟨k, io ++ [r]⟩

/-! ## Tokens -/

section
variable {cc : CharClass} {p q : Str} {l l' r X Y : List Token} {b b' : DefaultBuilder.State}

theorem isWord_iff {w : SWord} : IsWord cc p w ↔ Neat cc p ∧ RD .word (lex cc p) (some w) [] :=
  and_congr_right fun _ => parses_iff (m := .word) trivial

theorem isRedirect_iff {x : Redirect SWord} : IsRedirect cc p x ↔ Neat cc p ∧ RD .redirect (lex cc p) (some (.inl x)) [] :=
  and_congr_right fun _ => parses_iff (m := .redirect) trivial

theorem firm_text (hp : Neat cc p) (hn : p.getLast? ≠ some '\n') : Firm (lex cc p) := by
  intro v t e
  have ht : t ∈ lex cc p := by rw [e]; simp
  have hs := C02_token_shapes cc p t ht
  have hne := C02_tokens_nonempty cc p t ht
  have hc := C01_concat_tokens cc p
  rw [e, concatTokens_append, concatTokens_cons] at hc
  obtain ⟨s, d, hd⟩ := (List.eq_nil_or_concat t.asStr).resolve_left hne
  rw [List.concat_eq_append] at hd
  have hl : p.getLast? = some d := by
    rw [← hc, hd]
    simp [concatTokens]
  refine ⟨?_, ?_⟩
  · rintro rfl
    have : s ++ [d] = [] ++ ['\n'] := hd.symm
    obtain ⟨-, h⟩ := List.append_inj' this rfl
    cases h
    exact hn hl
  · rintro w rfl
    have hw : w = s ++ [d] := hd
    refine (hp.last d hl).2 ?_
    exact hs.2 d (by simp [hw])

theorem nil_redirect : RD .redirect [] none [] :=
  .noRedirect (.someWord (ws := []) (.refl (by simp [Gram.NoBlank])) (by simp) (.endWord (by intro t q e; cases e))) (by simp)

theorem args_red {x : Redirect SWord} (h : RD .redirect Y (some (.inl x)) []) : RD .args Y [.Redirect x] [] :=
  .argsRedirect h (.argsEnd nil_redirect)

theorem redirects_red {x : Redirect SWord} (hY : Gram.NoBlank Y) (h : RD .redirect Y (some (.inl x)) []) : RD .redirects Y [x] [] :=
  .redirectsCons (.refl hY) h (.redirectsNil (.refl (by simp [Gram.NoBlank])) nil_redirect)

theorem args_oneWord {w : SWord} (h : Reads (B := DefaultBuilder) .word b Y (some w) [] b') : RD .args Y [.CmdWord w] [] := by
  cases h with
  | word h1 h2 =>
    cases h1 with
    | wordPSome h3 h4 =>
      obtain ⟨bs, rfl, h5, -⟩ := h2
      rw [List.append_nil] at h3
      have hr : ∀ t r', bs = t :: r' → t ∉ redirOps := by
        rintro t r' rfl
        cases h5 <;> simp [redirOps]
      refine .argsWord (.redirectWord h3 (fun _ => hr) h4) (.argsEnd ?_)
      have := redirect_blanks (B := DefaultBuilder) (b := b) (b' := b) h5 nil_redirect
      simpa using this

theorem no_paren {X : List Token} {w : SWord} : ¬ RD .word (.ParenOpen :: X) (some w) [] := by
  intro h
  have g : RD .word (.ParenOpen :: X) none (.ParenOpen :: X) :=
    .word (.wordPNone (.someWord (ws := []) (.refl (by simp [Gram.NoBlank])) (by simp) (.endWord (by intro t q e; cases e; rfl))))
      (.refl (by simp [Gram.NoBlank]))
  have := (C31_unambiguous (B := DefaultBuilder) .word trivial _ _ h g).1
  cases this

theorem no_paren' {X : List Token} {a} : ¬ RD .redirect (.ParenOpen :: X) (some a) [] := by
  intro h
  have g : RD .redirect (.ParenOpen :: X) none (.ParenOpen :: X) :=
    .noRedirect (.someWord (ws := []) (.refl (by simp [Gram.NoBlank])) (by simp) (.endWord (by intro t q e; cases e; rfl)))
      (by intro t q e; cases e; decide)
  have := (C31_unambiguous (B := DefaultBuilder) .redirect trivial _ _ h g).1
  cases this

theorem rawWord_some {B : Builder} {b b' : B.State} {k : ComplexWordKind B.Command} (h : Reads (B := B) (.rawWord none) b l (some k) r b') :
    ∃ l' ws, Skip l l' ∧ Reads (B := B) (.pieces none) b l' ws r b' ∧ some k = wordOf ws := by
  generalize e : some k = o at h
  cases h with
  | noWord => cases e
  | someWord h1 h2 h3 => exact ⟨_, _, h1, h3, rfl⟩

theorem piece_name {B : Builder} {b b' : B.State} {v : Str} {w} (h : Reads (B := B) .piece b (.Name v :: l) w r b') :
    r = l ∧ b' = b ∧ w = .Simple (.Literal v) := by
  cases h with
  | literal h => simp [literalTokens] at h
  | name => exact ⟨rfl, rfl, rfl⟩
  | special h => simp [specialTokens] at h
  | pieceBacktick h => generalize e : Token.Name v :: l = l0 at h; cases h; cases e
  | pieceParam h => cases h

theorem piece_equals {B : Builder} {b b' : B.State} {w} (h : Reads (B := B) .piece b (.Equals :: l) w r b') :
    r = l ∧ b' = b ∧ w = .Simple (.Literal "=".toList) := by
  cases h with
  | literal h => exact ⟨rfl, rfl, rfl⟩
  | special h => simp [specialTokens] at h
  | pieceBacktick h => generalize e : Token.Equals :: l = l0 at h; cases h; cases e
  | pieceParam h => cases h

/-- A redirection is no assignment. -/
theorem no_assign {x : Redirect SWord} (h : Reads (B := DefaultBuilder) .redirect b Y (some (.inl x)) r b') : ¬ AssignStart Y := by
  rintro ⟨v, q, rfl⟩
  have hs : ∀ {l'}, Skip (.Name v :: .Equals :: q) l' → l' = .Name v :: .Equals :: q := fun h => (h.eq (by simp [Gram.NoBlank])).symm ▸ rfl
  generalize e : some (Sum.inl (β := SWord) x) = o at h
  cases h with
  | redirect h1 h2 h3 =>
    obtain ⟨-, h4, ⟨q', h5⟩ | ⟨-, h5⟩⟩ | ⟨-, h4⟩ := rawWord_none h1
    · rw [h5] at h4; exact absurd (hs h4) (by simp)
    · rw [hs h4] at h5; exact absurd (h5 _ _ rfl) (by simp [Token.isWordDelimiter])
    · exact absurd (hs h4) (by simp)
  | redirectFd h1 h2 h3 h4 =>
    rename_i k n t l' b1
    obtain ⟨l0, ws, h5, h7, e2⟩ := rawWord_some h1
    · rw [hs h5] at h7
      obtain ⟨s, hl, hg, -, -⟩ := h2
      have hs2 : '=' ∉ s := by
        intro hm
        exact signed_not_odd hg ⟨_, hm, by decide⟩
      cases h7 with
      | endWord he => cases he _ _ rfl
      | consPiece _ h8 h9 =>
        obtain ⟨rfl, rfl, rfl⟩ := piece_name h8
        cases h9 with
        | endWord he => cases he _ _ rfl
        | consPiece _ h8 h9 =>
          obtain ⟨rfl, rfl, rfl⟩ := piece_equals h8
          injection e2 with e2
          cases hl with
          | single => cases e2
          | @concat ss =>
            injection e2 with e2
            match ss, e2 with
            | [], e2 => cases e2
            | [_], e2 => cases e2
            | s1 :: s2 :: ss, e2 =>
              simp at e2
              refine hs2 ?_
              simp [e2.2.1]
  | redirectWord => cases e
  | noRedirect => cases e

/-! ## Simple commands -/

/-- What a simple command is read from. -/
theorem simple_split {c : SPipeable} (h : Reads (B := DefaultBuilder) .simple b l c [] b') :
    ∃ vs, (Reads (B := DefaultBuilder) .assigns b l (vs, none) [] b' ∧ c = .Simple ⟨vs, []⟩ ∧ vs ≠ []) ∨
      ∃ w l' as, Reads (B := DefaultBuilder) .assigns b l (vs, some w) l' b' ∧ Reads (B := DefaultBuilder) .args b' l' as [] b' ∧
        c = .Simple ⟨vs, .CmdWord w :: as⟩ := by
  cases h with
  | @simple _ _ vs e l' b1 as _ b2 _ _ h1 h2 h3 h4 =>
    obtain rfl := calls_eq h4 (congrArg Prod.fst (calls_simple vs _))
    have e1 : b1 = b' := rfl
    have e2 : b2 = b' := rfl
    subst e1
    cases e with
    | some w => exact ⟨vs, .inr ⟨w, l', as, h1, h2, rfl⟩⟩
    | none =>
      obtain ⟨rfl, rfl⟩ : as = [] ∧ l' = [] := by
        have key : ∀ {vs} {b b' : DefaultBuilder.State} {l}, Reads (B := DefaultBuilder) .assigns b l (vs, none) l' b' →
            ∃ (b0 : DefaultBuilder.State) (l0 l1 : List Token), Skip l0 l1 ∧ Reads (B := DefaultBuilder) .redirect b0 l1 none l' b' := by
          intro vs
          induction vs with
          | nil =>
            intro b b' l h
            cases h with
            | assignsEnd h1 h2 h3 => exact ⟨_, _, _, h1, h3⟩
          | cons v vs ih =>
            intro b b' l h
            cases h with
            | assignEmpty _ h => exact ih h
            | assign _ _ _ h => exact ih h
            | assignsRedirect _ _ _ h => exact ih h
        obtain ⟨b0, l0, l1, g1, g2⟩ := key h1
        cases h2 with
        | argsRedirect g3 => cases no_second g1 g2 g3
        | argsWord g3 => cases no_second g1 g2 g3
        | argsEnd g3 =>
          refine ⟨rfl, ?_⟩
          have hn : ∀ {X}, RD .redirect l' none X → X = l' := by
            intro X hX
            have hb := redirect_none_nb g2
            cases g2 with
            | noRedirect g4 g5 =>
              rcases rawWord_none g4 with ⟨-, -, g6⟩ | ⟨rfl, -⟩
              · suffices hq : RD .redirect l' none l' from (C31_unambiguous (B := DefaultBuilder) .redirect trivial _ _ hX hq).2.1
                refine .noRedirect (b' := b1) ?_ g5
                rcases g6 with ⟨q, rfl⟩ | ⟨g6, g7⟩
                · exact .noWord (.refl hb)
                · exact .someWord (ws := []) (.refl hb) g6 (.endWord g7)
              · exact (C31_unambiguous (B := DefaultBuilder) .redirect trivial _ _ hX nil_redirect).2.1
          exact (hn g3).symm
      exact ⟨vs, .inl ⟨h1, rfl, by simpa using h3⟩⟩

/-- The assignments before a command. -/
theorem assigns_word_ext {vs : List (RedirectOrEnvVar (Redirect SWord) Str SWord)} {w0 : SWord} (w : Str) (Y : List Token)
    (hx : Gram.Plain none l) (h : Reads (B := DefaultBuilder) .assigns b l (vs, some w0) r b') :
    Gram.Plain none r ∧ Reads (B := DefaultBuilder) .assigns b (l ++ .Whitespace w :: Y) (vs, some w0) (r ++ .Whitespace w :: Y) b' := by
  have nil : ∀ {vs r} {b b' : DefaultBuilder.State}, ¬ Reads (B := DefaultBuilder) .assigns b [] (vs, some w0) r b' := by
    intro vs r b b' h
    have no : ∀ {t q}, ¬ Skip [] (t :: q) := by
      intro t q h
      have := h.le
      simp at this
    have nil : ∀ {q}, Skip [] q → q = [] := fun h => List.length_eq_zero_iff.1 (Nat.le_zero.1 h.le)
    cases h with
    | assignEmpty h1 => exact absurd h1 no
    | assign h1 => exact absurd h1 no
    | assignsRedirect h1 _ h3 => obtain rfl := nil h1; exact absurd h3 redirect_nil
    | assignsWord h1 _ h3 => obtain rfl := nil h1; exact absurd h3 redirect_nil
  induction vs generalizing l b with
  | nil =>
    cases h with
    | assignsWord h1 h2 h3 =>
      obtain ⟨hx2, g⟩ := redirect_ext w Y (h1.plain hx) h3
      exact ⟨hx2, .assignsWord (skip_extend h1 hx (by rintro rfl; exact redirect_nil h3))
        (assignStart_ext (by rintro rfl; exact redirect_nil h3) h2) g⟩
  | cons v vs ih =>
    cases h with
    | assignEmpty h1 h2 =>
      obtain ⟨hx2, g⟩ := ih ((h1.plain hx).suffix (v := [_, _])) h2
      exact ⟨hx2, .assignEmpty (skip_extend (Y := .Whitespace w :: Y) h1 hx (by simp)) g⟩
    | assign h1 h2 h3 h4 =>
      rename_i l' l2 b1 o
      obtain ⟨hx1, g1⟩ := loose_ext (n := .word) w Y trivial (by simp [NT.slack]) (by rintro rfl; exact nil h4)
        ((h1.plain hx).suffix (v := [_, _])) h3
      obtain ⟨hx2, g⟩ := ih hx1 h4
      refine ⟨hx2, .assign (skip_extend (Y := .Whitespace w :: Y) h1 hx (by simp)) ?_ g1 g⟩
      cases l' with
      | nil =>
        have h5 : b1.length ≤ 0 := h3.len.1
        obtain rfl := List.length_eq_zero_iff.1 (Nat.le_zero.1 h5)
        exact absurd h4 nil
      | cons t l' =>
        rintro u q e
        simp at e
        exact h2 u l' (by rw [e.1])
    | assignsRedirect h1 h2 h3 h4 =>
      obtain ⟨hx1, g1⟩ := redirect_ext w Y (h1.plain hx) h3
      obtain ⟨hx2, g⟩ := ih hx1 h4
      exact ⟨hx2, .assignsRedirect (skip_extend h1 hx (by rintro rfl; exact redirect_nil h3))
        (assignStart_ext (by rintro rfl; exact redirect_nil h3) h2) g1 g⟩

/-! ## Functions -/

/-- A redirection after a function. -/
theorem function_ext {x : Str} {c : SCompound} {rs : List (Redirect SWord)} (w : Str) (hx : Gram.Plain none l) (hnb : Gram.NoBlank l)
    (hc : BareFn (.FunctionDef x c) → ∀ q, ¬ Keyword FUNCTION l q) (h : Reads (B := DefaultBuilder) .function b l (.FunctionDef x c) [] b')
    (hY : RD .redirects Y rs []) : RD .function (l ++ .Whitespace w :: Y) (.FunctionDef x ⟨c.kind, c.io ++ rs⟩) [] := by
  generalize e : PipeableCommand.FunctionDef x c = f at h
  cases h with
  | @function _ found _ l1 y l2 l3 b1 ns l4 kw c' _ b2 _ _ h1 h2 h3 h4 h5 h6 h7 =>
    obtain rfl := calls_eq h7 rfl
    cases e
    have hlen := h6.compound_lt
    have h4n : l4 ≠ [] := by rintro rfl; simp at hlen
    have h3n : l3 ≠ [] := by
      rintro rfl
      have := h4.le
      exact h4n (List.length_eq_zero_iff.1 (Nat.le_zero.1 this))
    have hx1 : Gram.Plain none l1 := by
      rcases h1 with ⟨-, l', g1, g2⟩ | ⟨-, rfl, -⟩
      · rcases g2.1 with g | g <;> · have := g1.plain hx; rw [g] at this; exact plain_cons this
      · exact hx
    have hx2 : Gram.Plain none l2 := plain_cons (h2.plain hx1)
    obtain ⟨hx3, g3⟩ := loose_ext (n := .fnStart found) w Y trivial (by simp [NT.slack]) h3n hx2 h3
    have hx4 := Lines.plain h4 hx3
    refine .function (found := found) (l1 := l1 ++ .Whitespace w :: Y) ?_ (skip_extend (Y := .Whitespace w :: Y) h2 hx1 (by simp)) g3 (lines_extend h4 hx3 h4n)
      (compoundStart_ext h5) (compound_ext (b'' := b2) w hx4 h6 hY) rfl
    rcases h1 with ⟨rfl, l', g1, g2⟩ | ⟨rfl, rfl, g⟩
    · refine .inl ⟨rfl, l' ++ .Whitespace w :: Y, skip_extend g1 hx ?_, keyword_ext g2⟩
      rintro rfl
      rcases g2.1 with g | g <;> cases g
    · refine .inr ⟨rfl, rfl, ?_⟩
      rintro q ⟨l', g1, g2⟩
      obtain rfl := g1.eq (noBlank_append hnb (by rintro rfl; have := h2.le; simp at this) hx)
      obtain ⟨q', g3⟩ := keyword_of_ext g2
      exact g _ ⟨_, .refl hnb, g3⟩
  | functionSubshell h0 _ h1 h2 =>
    cases h1 with
    | fnSubshell _ _ _ h3 =>
      obtain rfl := calls_eq h3 rfl
      obtain rfl := calls_eq h2 rfl
      cases e
      obtain ⟨l', g1, g2⟩ := h0
      obtain rfl := g1.eq hnb
      exact absurd g2 (hc trivial _)

theorem ne_of_lt {l : List Token} (h : ([] : List Token).length < l.length) : l ≠ [] := by
  rintro rfl; simp at h

/-- A redirection after a compound command. -/
theorem command_compound_ext {k io} {rs : List (Redirect SWord)} (w : Str) (hx : Gram.Plain none l) (hl : Gram.NoBlank l)
    (h : Reads (B := DefaultBuilder) .command b l (.Compound ⟨k, io⟩) [] b') (hY : RD .redirects Y rs []) :
    RD .command (l ++ .Whitespace w :: Y) (.Compound ⟨k, io ++ rs⟩) [] := by
  have hne := ne_of_lt h.command_lt
  generalize e : PipeableCommand.Compound _ = c at h
  cases h with
  | commandCompound h1 h2 h3 h =>
    obtain rfl := calls_eq h rfl
    obtain rfl := h1.eq hl
    cases e
    exact .commandCompound (.refl (noBlank_append hl hne hx)) (compoundStart_ext h2) (compound_ext w hx h3 hY) rfl
  | commandFunction _ _ _ h =>
    cases h with
    | function _ _ _ _ _ _ h => obtain rfl := calls_eq h rfl; cases e
    | functionSubshell _ _ _ h => obtain rfl := calls_eq h rfl; cases e
  | commandSimple h1 h2 h3 h4 =>
    obtain ⟨_, ⟨-, e2, -⟩ | ⟨_, _, _, -, -, e2⟩⟩ := simple_split h4 <;> rw [← e] at e2 <;> cases e2

/-- A redirection after a function. -/
theorem command_function_ext {f : Str} {k io} {rs : List (Redirect SWord)} (w : Str) (hx : Gram.Plain none l) (hl : Gram.NoBlank l)
    (h : Reads (B := DefaultBuilder) .command b l (.FunctionDef f ⟨k, io⟩) [] b') (hc : BareFn (.FunctionDef f ⟨k, io⟩) → ∀ q, ¬ Keyword FUNCTION l q)
    (hY : RD .redirects Y rs []) :
    RD .command (l ++ .Whitespace w :: Y) (.FunctionDef f ⟨k, io ++ rs⟩) [] := by
  have hne := ne_of_lt h.command_lt
  generalize e : PipeableCommand.FunctionDef _ _ = c at h
  cases h with
  | commandCompound h1 h2 h3 h => obtain rfl := calls_eq h rfl; cases e
  | commandFunction h1 h2 h3 h =>
    obtain rfl := h1.eq hl
    subst e
    exact .commandFunction (.refl (noBlank_append hl hne hx)) (fun kw g => h2 kw (compoundStart_of_ext g)) (functionStart_ext h3)
      (function_ext w hx hl hc h hY)
  | commandSimple h1 h2 h3 h4 =>
    obtain ⟨_, ⟨-, e2, -⟩ | ⟨_, _, _, -, -, e2⟩⟩ := simple_split h4 <;> rw [← e] at e2 <;> cases e2

/-! ## Texts -/

theorem simple_make {vs : List (RedirectOrEnvVar (Redirect SWord) Str SWord)} {ws : List (RedirectOrCmdWord (Redirect SWord) SWord)}
    (hvs : vs ≠ [] ∨ ws ≠ []) (h : RD .assigns l (vs, none) [] ∧ ws = [] ∨
      ∃ w l' as, RD .assigns l (vs, some w) l' ∧ RD .args l' as [] ∧ ws = .CmdWord w :: as) :
    RD .simple l (.Simple ⟨vs, ws⟩) [] := by
  rcases h with ⟨h1, rfl⟩ | ⟨w, l', as, h1, h2, rfl⟩
  · exact .simple h1 (.argsEnd nil_redirect) (.inl (hvs.resolve_right (by simp))) (calls_simple vs _)
  · exact .simple h1 h2 (.inr (.inl rfl)) (calls_simple vs _)

/-- What a simple command on its own is. -/
theorem command_simple {vs ws} (h : Reads (B := DefaultBuilder) .command b l (.Simple ⟨vs, ws⟩) r b') (hl : Gram.NoBlank l) :
    (∀ kw, ¬ CompoundStart l kw) ∧ ¬ FunctionStart l ∧ Reads (B := DefaultBuilder) .simple b l (.Simple ⟨vs, ws⟩) r b' := by
  generalize e : PipeableCommand.Simple _ = c at h
  cases h with
  | commandCompound _ _ _ h => obtain rfl := calls_eq h rfl; cases e
  | commandFunction _ _ _ h =>
    cases h with
    | function _ _ _ _ _ _ h => obtain rfl := calls_eq h rfl; cases e
    | functionSubshell _ _ _ h => obtain rfl := calls_eq h rfl; cases e
  | commandSimple h1 h2 h3 h4 => obtain rfl := h1.eq hl; cases e; exact ⟨h2, h3, h4⟩

/-- Two texts with blanks between them. -/
theorem neat_blanks {bl : Str} (hp : Neat cc p) (hq : Neat cc q) (hp0 : p ≠ []) (hq0 : q ≠ [])
    (hs : cc.Sane) (hb : SomeBlanks cc bl) : Neat cc (p ++ (bl ++ q)) := by
  refine ⟨?_, ?_, ?_, ?_⟩
  · intro c hc
    cases p with
    | nil => exact absurd rfl hp0
    | cons d p => exact hp.first c hc
  · intro h
    exact hp.joined (neat_ne hp.last h hp0)
  · intro c hc
    rw [← List.append_assoc, List.getLast?_append] at hc
    refine hq.last c ?_
    rcases List.eq_nil_or_concat q with rfl | ⟨q, d, rfl⟩
    · exact absurd rfl hq0
    · simpa using hc
  · have hbl : '<' ∉ bl := by
      intro h
      exact (blank_not_op hs (hb.2 _ h)).1 (delim_op (by decide))
    have cut : ∀ {u v : Str}, u ≠ [] → '<' ∉ u → ∀ x, ['<', '<'] <:+: x ++ (u ++ v) → ['<', '<'] <:+: x ∨ ['<', '<'] <:+: v := by
      intro u v hu hn x h
      induction u generalizing x with
      | nil => exact absurd rfl hu
      | cons c u ih =>
        simp at hn
        rcases infix_cut (fun e => hn.1 e.symm) h with h | h
        · exact .inl h
        · cases u with
          | nil => exact .inr h
          | cons d u =>
            rcases ih (by simp) (by simpa using hn.2) [] (by simpa using h) with h | h
            · simp at h
            · exact .inr h
    intro h
    rcases cut hb.1 hbl _ h with h | h
    · exact hp.here h
    · exact hq.here h

theorem lex_apart {bl : Str} (hs : cc.Sane) (hp : Neat cc p) (hb : SomeBlanks cc bl) (hq : Neat cc q) (hq0 : q ≠ []) :
    lex cc (p ++ (bl ++ q)) = lex cc p ++ .Whitespace bl :: lex cc q := by
  obtain ⟨d, y, rfl⟩ := List.exists_cons_of_ne_nil hq0
  exact lex_blanks hs p bl d y hp.last hb.1 hb.2 (hq.first d rfl)

theorem isWord_ne {w : SWord} (h : IsWord cc p w) : p ≠ [] := by
  rintro rfl
  have := (isWord_iff.1 h).2
  rw [lex_nil] at this
  have g : RD .word [] none [] :=
    .word (.wordPNone (.someWord (ws := []) (.refl (by simp [Gram.NoBlank])) (by simp) (.endWord (by intro t q e; cases e))))
      (.refl (by simp [Gram.NoBlank]))
  have := (C31_unambiguous (B := DefaultBuilder) .word trivial _ _ this g).1
  cases this

theorem isRedirect_ne {x : Redirect SWord} (h : IsRedirect cc p x) : p ≠ [] := by
  rintro rfl
  have := (isRedirect_iff.1 h).2
  rw [lex_nil] at this
  exact redirect_nil this

section
variable (hs : cc.Sane)
include hs

/-- More arguments after a command. -/
theorem more_args {bl : Str} {vs ws as} (hp : IsCommand cc p (.Simple ⟨vs, ws⟩)) (hw : ws ≠ []) (hb : SomeBlanks cc bl)
    (hq : Neat cc q) (hq0 : q ≠ []) (hpar : ∀ X, lex cc q ≠ .ParenOpen :: X) (h : RD .args (lex cc q) as []) :
    IsCommand cc (p ++ (bl ++ q)) (.Simple ⟨vs, ws ++ as⟩) := by
  have hp0 := isCommand_ne hp
  refine isCommand_iff.2 ⟨neat_blanks hp.1 hq hp0 hq0 hs hb, ?_⟩
  rw [lex_apart hs hp.1 hb hq hq0]
  obtain ⟨h1, h2, h3⟩ := command_simple (isCommand_iff.1 hp).2 hp.1.nb
  have hx := hp.1.plain
  have hne : lex cc p ≠ [] := by
    intro e
    have := (isCommand_iff.1 hp).2.command_lt
    simp [e] at this
  refine .commandSimple (.refl (noBlank_append hp.1.nb hne hx)) (fun kw g => h1 kw (compoundStart_of_ext g))
    (fun g => h2 (functionStart_of_ext hpar g)) ?_
  obtain ⟨vs', ⟨-, e, -⟩ | ⟨w, l', as', g1, g2, e⟩⟩ := simple_split h3
  · cases e; exact absurd rfl hw
  · cases e
    obtain ⟨hx1, g3⟩ := assigns_word_ext bl (lex cc q) hx g1
    exact simple_make (.inr (by simp)) (.inr ⟨w, _, _, g3, args_ext bl hx1 g2 h, rfl⟩)

/-- More assignments and redirections, and the command after them. -/
theorem more_simple {bl : Str} {vs vs' ws'} (hp : IsCommand cc p (.Simple ⟨vs, []⟩)) (hnl : p.getLast? ≠ some '\n') (hb : SomeBlanks cc bl)
    (hq : Neat cc q) (hq0 : q ≠ []) (hpar : ∀ X, lex cc q ≠ .ParenOpen :: X)
    (h : RD .assigns (lex cc q) (vs', none) [] ∧ ws' = [] ∨
      ∃ w l' as, RD .assigns (lex cc q) (vs', some w) l' ∧ RD .args l' as [] ∧ ws' = .CmdWord w :: as) :
    IsCommand cc (p ++ (bl ++ q)) (.Simple ⟨vs ++ vs', ws'⟩) := by
  have hp0 := isCommand_ne hp
  refine isCommand_iff.2 ⟨neat_blanks hp.1 hq hp0 hq0 hs hb, ?_⟩
  rw [lex_apart hs hp.1 hb hq hq0]
  obtain ⟨h1, h2, h3⟩ := command_simple (isCommand_iff.1 hp).2 hp.1.nb
  have hx := hp.1.plain
  have hne : lex cc p ≠ [] := by
    intro e
    have := (isCommand_iff.1 hp).2.command_lt
    simp [e] at this
  refine .commandSimple (.refl (noBlank_append hp.1.nb hne hx)) (fun kw g => h1 kw (compoundStart_of_ext g))
    (fun g => h2 (functionStart_of_ext hpar g)) ?_
  obtain ⟨vs0, ⟨g1, e, hvs⟩ | ⟨w, l', as', g1, g2, e⟩⟩ := simple_split h3
  · cases e
    have hf := firm_text hp.1 hnl
    refine simple_make (.inl (by simp [hvs])) ?_
    rcases h with ⟨h, rfl⟩ | ⟨w, l', as, h, g, rfl⟩
    · exact .inl ⟨assigns_ext bl hx hf hq.nb g1 h, rfl⟩
    · exact .inr ⟨w, l', as, assigns_ext bl hx hf hq.nb g1 h, g, rfl⟩
  · cases e

/-- **C63.** A word after a command is one more argument. -/
theorem C63_word {bl : Str} {vs ws} {w : SWord} (hp : IsCommand cc p (.Simple ⟨vs, ws⟩)) (hw : ws ≠ []) (hq : IsWord cc q w)
    (hb : SomeBlanks cc bl) : IsCommand cc (p ++ bl ++ q) (.Simple ⟨vs, ws ++ [.CmdWord w]⟩) := by
  have h := (isWord_iff.1 hq).2
  have := more_args hs hp hw hb hq.1 (isWord_ne hq) (by intro X e; rw [e] at h; exact no_paren h) (args_oneWord h)
  simpa using this

/-- **C63.** Any number of words and redirections after a command are its arguments, in this order. -/
theorem C63_args {s : Str} {vs ws as} (hp : IsCommand cc p (.Simple ⟨vs, ws⟩)) (hw : ws ≠ []) (hq : Args cc s as) :
    IsCommand cc (p ++ s) (.Simple ⟨vs, ws ++ as⟩) := by
  induction hq generalizing p ws with
  | nil => simpa using hp
  | @cons bl q s a as hb ha _ ih =>
    have h1 : IsCommand cc (p ++ (bl ++ q)) (.Simple ⟨vs, ws ++ [a]⟩) := by
      cases ha with
      | word hq =>
        have h := (isWord_iff.1 hq).2
        exact more_args hs hp hw hb hq.1 (isWord_ne hq) (by intro X e; rw [e] at h; exact no_paren h) (args_oneWord h)
      | redirect hq =>
        have h := (isRedirect_iff.1 hq).2
        exact more_args hs hp hw hb hq.1 (isRedirect_ne hq) (by intro X e; rw [e] at h; exact no_paren' h) (args_red h)
    have := ih h1 (by simp)
    simpa using this

/-- **C63.** What stands before the name of a command — assignments and redirections — is put before it; `p` is only that. -/
theorem C63_prefix {bl : Str} {vs vs' ws'} (hp : IsCommand cc p (.Simple ⟨vs, []⟩)) (hnl : p.getLast? ≠ some '\n')
    (hq : IsCommand cc q (.Simple ⟨vs', ws'⟩)) (hb : SomeBlanks cc bl) : IsCommand cc (p ++ bl ++ q) (.Simple ⟨vs ++ vs', ws'⟩) := by
  obtain ⟨h1, h2, h3⟩ := command_simple (isCommand_iff.1 hq).2 hq.1.nb
  have := more_simple hs hp hnl hb hq.1 (isCommand_ne hq) (by intro X e; rw [e] at h1; exact h1 _ .subshell) (vs' := vs') (ws' := ws') (by
    obtain ⟨vs0, ⟨g1, e, -⟩ | ⟨w, l', as', g1, g2, e⟩⟩ := simple_split h3
    · cases e; exact .inl ⟨g1, rfl⟩
    · cases e; exact .inr ⟨w, l', as', g1, g2, rfl⟩)
  simpa using this

/-- **C63.** A redirection after a command of any kind is one more redirection of it. -/
theorem C63_redirect {bl : Str} {c : SPipeable} {x : Redirect SWord} (hp : IsCommand cc p c) (hnl : p.getLast? ≠ some '\n')
    (hc : BareFn c → ¬ "function".toList <+: p)
    (hq : IsRedirect cc q x) (hb : SomeBlanks cc bl) : IsCommand cc (p ++ bl ++ q) (withRedirect x c) := by
  have h := (isRedirect_iff.1 hq).2
  have hq0 := isRedirect_ne hq
  have hpar : ∀ X, lex cc q ≠ .ParenOpen :: X := by
    intro X e; rw [e] at h; exact no_paren' h
  rw [List.append_assoc]
  match c, hp, hc with
  | .Simple ⟨vs, []⟩, hp, _ =>
    refine more_simple hs hp hnl hb hq.1 hq0 hpar (.inl ⟨?_, rfl⟩)
    refine .assignsRedirect (.refl hq.1.nb) (no_assign h) h (.assignsEnd (.refl (by simp [Gram.NoBlank])) ?_ nil_redirect)
    rintro ⟨v, q, e⟩; cases e
  | .Simple ⟨vs, w :: ws⟩, hp, _ => exact more_args hs hp (by simp) hb hq.1 hq0 hpar (args_red h)
  | .Compound ⟨k, io⟩, hp, _ =>
    have hp0 := isCommand_ne hp
    refine isCommand_iff.2 ⟨neat_blanks hp.1 hq.1 hp0 hq0 hs hb, ?_⟩
    rw [lex_apart hs hp.1 hb hq.1 hq0]
    have hx := hp.1.plain
    exact command_compound_ext bl hx hp.1.nb (isCommand_iff.1 hp).2 (redirects_red hq.1.nb h)
  | .FunctionDef f ⟨k, io⟩, hp, hc =>
    have hp0 := isCommand_ne hp
    refine isCommand_iff.2 ⟨neat_blanks hp.1 hq.1 hp0 hq0 hs hb, ?_⟩
    rw [lex_apart hs hp.1 hb hq.1 hq0]
    have hx := hp.1.plain
    refine command_function_ext bl hx hp.1.nb (isCommand_iff.1 hp).2 (fun hb q g => hc hb ?_) (redirects_red hq.1.nb h)
    have := C01_concat_tokens cc p
    rcases g.1 with g | g <;> rw [g, concatTokens_cons] at this <;> exact ⟨_, this⟩

end

end

/-! ## Cases -/

/-- The text is a word. -/
def isWordText (p : String) : Bool := isNeat p.toList && (readsAll .word p).any (·.isSome)

theorem isWordText_sound {p : String} (h : isWordText p = true) : ∃ w, IsWord ascii p.toList w := by
  simp only [isWordText, Bool.and_eq_true, Option.any_eq_true] at h
  obtain ⟨h1, a, h2, h3⟩ := h
  obtain ⟨w, rfl⟩ := Option.isSome_iff_exists.1 h3
  exact ⟨w, isNeat_sound h1, readsAll_iff.1 h2⟩

def isLeft {A C : Type} : Option (A ⊕ C) → Bool
  | some (.inl _) => true
  | _ => false

/-- The text is a redirection. -/
def isRedirectText (p : String) : Bool := isNeat p.toList && (readsAll .redirect p).any isLeft

theorem isRedirectText_sound {p : String} (h : isRedirectText p = true) : ∃ x, IsRedirect ascii p.toList x := by
  simp only [isRedirectText, Bool.and_eq_true, Option.any_eq_true] at h
  obtain ⟨h1, a, h2, h3⟩ := h
  match a, h3 with
  | some (.inl x), _ => exact ⟨x, isNeat_sound h1, readsAll_iff.1 h2⟩

/-- How many items there are before and after the name of a simple command (with it). -/
def simpleShape (p : String) : Option (Nat × Nat) :=
  match readsAll .command p with
  | some (.Simple ⟨vs, ws⟩) => some (vs.length, ws.length)
  | _ => none

theorem simpleShape_sound {p : String} {m n : Nat} (h0 : isNeat p.toList = true) (h : simpleShape p = some (m, n)) :
    ∃ vs ws, IsCommand ascii p.toList (.Simple ⟨vs, ws⟩) ∧ vs.length = m ∧ ws.length = n := by
  unfold simpleShape at h
  split at h
  · rename_i vs ws e
    injection h with h
    injection h with h1 h2
    exact ⟨vs, ws, ⟨isNeat_sound h0, readsAll_iff.1 e⟩, h1, h2⟩
  · cases h

def apA : String := "x=1 2>&1"
def apB : String := "y=\"a b\" grep `c`"
def apW : String := "\"$x | y\"'z'"
def apR : String := "2>f$x"

/-- Prefix, words and redirections put together, with other blanks than one space. -/
example : ∃ vs vs' ws' w x, vs.length = 2 ∧ vs'.length = 1 ∧ ws'.length = 2 ∧
    IsCommand ascii (apA.toList ++ " \t".toList ++ apB.toList ++ " ".toList ++ apW.toList ++ "  ".toList ++ apR.toList)
      (.Simple ⟨vs ++ vs', ws' ++ [.CmdWord w] ++ [.Redirect x]⟩) := by
  have kA : isNeat apA.toList = true ∧ simpleShape apA = some (2, 0) := by decide +kernel
  have kB : isNeat apB.toList = true ∧ simpleShape apB = some (1, 2) := by decide +kernel
  have kW : isWordText apW = true := by decide +kernel
  have kR : isRedirectText apR = true := by decide +kernel
  have b1 : SomeBlanks ascii " \t".toList := ⟨by decide, by unfold Blank; decide⟩
  have b2 : SomeBlanks ascii " ".toList := ⟨by decide, by unfold Blank; decide⟩
  have b3 : SomeBlanks ascii "  ".toList := ⟨by decide, by unfold Blank; decide⟩
  obtain ⟨vs, ws, hA, h1, h2⟩ := simpleShape_sound kA.1 kA.2
  obtain rfl := List.length_eq_zero_iff.1 h2
  obtain ⟨vs', ws', hB, h3, h4⟩ := simpleShape_sound kB.1 kB.2
  obtain ⟨w, hW⟩ := isWordText_sound kW
  obtain ⟨x, hR⟩ := isRedirectText_sound kR
  have g1 := C63_prefix ascii_sane hA (by decide +kernel) hB b1
  have hw : ws' ≠ [] := by rintro rfl; simp at h4
  have g2 := C63_word ascii_sane g1 hw hW b2
  have g3 := C63_redirect ascii_sane g2 (by decide +kernel) (fun h => h.elim) hR b3
  refine ⟨vs, vs', ws', w, x, h1, h3, h4, ?_⟩
  cases ws' with
  | nil => exact absurd rfl hw
  | cons a ws' => exact g3

/-- Arguments of both kinds. -/
example : ∃ vs ws w x, ws.length = 2 ∧
    IsCommand ascii (apB.toList ++ (" ".toList ++ apR.toList ++ ("\t".toList ++ apW.toList ++ [])))
      (.Simple ⟨vs, ws ++ [.Redirect x, .CmdWord w]⟩) := by
  have kB : isNeat apB.toList = true ∧ simpleShape apB = some (1, 2) := by decide +kernel
  have kW : isWordText apW = true := by decide +kernel
  have kR : isRedirectText apR = true := by decide +kernel
  have b1 : SomeBlanks ascii "\t".toList := ⟨by decide, by unfold Blank; decide⟩
  have b2 : SomeBlanks ascii " ".toList := ⟨by decide, by unfold Blank; decide⟩
  obtain ⟨vs, ws, hB, -, h4⟩ := simpleShape_sound kB.1 kB.2
  obtain ⟨w, hW⟩ := isWordText_sound kW
  obtain ⟨x, hR⟩ := isRedirectText_sound kR
  have hw : ws ≠ [] := by rintro rfl; simp at h4
  exact ⟨vs, ws, w, x, h4, C63_args ascii_sane hB hw (.cons b2 (.redirect hR) (.cons b1 (.word hW) .nil))⟩

/-- A redirection after a loop, and one after a function. -/
example : ∃ c d x, IsCommand ascii opC.toList c ∧ IsCommand ascii opD.toList d ∧
    IsCommand ascii (opC.toList ++ " ".toList ++ apR.toList) (withRedirect x c) ∧
    IsCommand ascii (opD.toList ++ " ".toList ++ apR.toList) (withRedirect x d) := by
  have kC : opCommand opC = true := by decide +kernel
  have kD : isNeat opD.toList = true ∧ (readsAll .command opD).isSome = true := by decide +kernel
  have kR : isRedirectText apR = true := by decide +kernel
  have b2 : SomeBlanks ascii " ".toList := ⟨by decide, by unfold Blank; decide⟩
  obtain ⟨c, hc, hC⟩ := opCommand_sound kC
  obtain ⟨d, hd⟩ := Option.isSome_iff_exists.1 kD.2
  have hD : IsCommand ascii opD.toList d := ⟨isNeat_sound kD.1, readsAll_iff.1 hd⟩
  obtain ⟨x, hR⟩ := isRedirectText_sound kR
  exact ⟨c, d, x, hc, hD, C63_redirect ascii_sane hc (by decide +kernel) (fun h => absurd h hC) hR b2,
    C63_redirect ascii_sane hD (by decide +kernel) (fun _ => by decide +kernel) hR b2⟩

/-- The conditions are needed: after `x=\⏎` a word is the value, without a command before it a word is no argument, and after `function f (a)`
no redirection is read. -/
theorem C63_conditions_needed :
    (∃ vs vs' ws', IsCommand ascii "x=\\\n".toList (.Simple ⟨vs, []⟩) ∧ IsCommand ascii "a".toList (.Simple ⟨vs', ws'⟩) ∧
      ¬ IsCommand ascii "x=\\\n a".toList (.Simple ⟨vs ++ vs', ws'⟩)) ∧
    (∃ vs w, IsCommand ascii "x=1".toList (.Simple ⟨vs, []⟩) ∧ IsWord ascii "y=2".toList w ∧
      ¬ IsCommand ascii "x=1 y=2".toList (.Simple ⟨vs, [.CmdWord w]⟩)) ∧
    (∃ c x, IsCommand ascii "function f (a)".toList c ∧ IsRedirect ascii ">b".toList x ∧
      ∀ d, ¬ IsCommand ascii "function f (a) >b".toList d) := by
  have no : ∀ {p : String} {m n : Nat} {vs ws}, simpleShape p = some (m, n) → IsCommand ascii p.toList (.Simple ⟨vs, ws⟩) →
      vs.length = m ∧ ws.length = n := by
    intro p m n vs ws h1 h2
    unfold simpleShape at h1
    rw [readsAll_iff.2 h2.2] at h1
    injection h1 with h1
    injection h1 with h1 h3
    exact ⟨h1, h3⟩
  refine ⟨?_, ?_, ?_⟩
  · have k1 : isNeat "x=\\\n".toList = true ∧ simpleShape "x=\\\n" = some (1, 0) := by decide +kernel
    have k2 : isNeat "a".toList = true ∧ simpleShape "a" = some (0, 1) := by decide +kernel
    have k3 : simpleShape "x=\\\n a" = some (1, 0) := by decide +kernel
    obtain ⟨vs, ws, h1, h2, h3⟩ := simpleShape_sound k1.1 k1.2
    obtain ⟨vs', ws', h4, h5, h6⟩ := simpleShape_sound k2.1 k2.2
    obtain rfl := List.length_eq_zero_iff.1 h3
    refine ⟨vs, vs', ws', h1, h4, fun h => ?_⟩
    have := no k3 h
    omega
  · have k1 : isNeat "x=1".toList = true ∧ simpleShape "x=1" = some (1, 0) := by decide +kernel
    have k2 : isWordText "y=2" = true := by decide +kernel
    have k3 : simpleShape "x=1 y=2" = some (2, 0) := by decide +kernel
    obtain ⟨vs, ws, h1, h2, h3⟩ := simpleShape_sound k1.1 k1.2
    obtain ⟨w, hw⟩ := isWordText_sound k2
    obtain rfl := List.length_eq_zero_iff.1 h3
    refine ⟨vs, w, h1, hw, fun h => ?_⟩
    have := no k3 h
    simp at this
  · have k1 : isNeat "function f (a)".toList = true ∧ (readsAll .command "function f (a)").isSome = true := by decide +kernel
    have k2 : isRedirectText ">b" = true := by decide +kernel
    have k3 : (readsAll .command "function f (a) >b").isSome = false := by decide +kernel
    obtain ⟨c, hc⟩ := Option.isSome_iff_exists.1 k1.2
    obtain ⟨x, hx⟩ := isRedirectText_sound k2
    refine ⟨c, x, ⟨isNeat_sound k1.1, readsAll_iff.1 hc⟩, hx, fun d h => ?_⟩
    rw [readsAll_iff.2 h.2] at k3
    cases k3

end Conch
