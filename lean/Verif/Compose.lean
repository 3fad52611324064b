import Verif.PropsLocal
import Verif.PropsLayout
/-!
# Scripts inside compound commands: the first word of a command
-/
namespace Conch
open Spec Gram

/-! ## Specification -/

/-- The text of a word that is plain text. -/
def Spec.plainText : SWord → Option Str
  | .mk (.Single (.Simple (.Literal s))) => some s
  | _ => none

/-- The plain word a command starts with, or the name of the function it defines. -/
def Spec.pipeableOpens : SPipeable → Option Str
  | .Simple ⟨[], .CmdWord w :: _⟩ => plainText w
  | .FunctionDef f _ => some f
  | _ => none

/-- The plain word with which a whole command, with its pipelines, starts. -/
def Spec.opens : SCommand → Option Str
  | .mk (.Job ⟨.Single c, _⟩) | .mk (.List ⟨.Single c, _⟩) => pipeableOpens c
  | .mk (.Job ⟨.Pipe false (c :: _), _⟩) | .mk (.List ⟨.Pipe false (c :: _), _⟩) => pipeableOpens c
  | _ => none

/-! ## A command that starts with a word -/

/-- The token is the word `w`. -/
def WordTok (w : Str) (t : Token) : Prop := t = .Name w ∨ t = .Literal w ∨ t = .CurlyClose ∧ w = ['}']

section
variable {w : Str} {t : Token} {l r : List Token}

theorem WordTok.noBlank (h : WordTok w t) : Gram.NoBlank (t :: l) := by
  rcases h with rfl | rfl | ⟨rfl, -⟩ <;> simp [Gram.NoBlank]


variable {B : Builder} {b b' : B.State}

theorem WordTok.piece (h : WordTok w t) {k} (hr : Reads (B := B) .piece b (t :: l) k r b') :
    k = .Simple (.Literal w) ∧ r = l := by
  generalize e : t :: l = l0 at hr
  cases hr with
  | literal h1 =>
    cases e
    rcases h with rfl | rfl | ⟨rfl, rfl⟩
    · simp [literalTokens] at h1
    · simp [literalTokens] at h1
    · exact ⟨rfl, rfl⟩
  | name => cases e; rcases h with e | e | ⟨e, -⟩ <;> cases e; exact ⟨rfl, rfl⟩
  | text => cases e; rcases h with e | e | ⟨e, -⟩ <;> cases e; exact ⟨rfl, rfl⟩
  | special h1 =>
    cases e
    rcases h with rfl | rfl | ⟨rfl, rfl⟩ <;> simp [specialTokens] at h1
  | escaped h1 => cases e; rcases h with e | e | ⟨e, -⟩ <;> cases e
  | singleQuoted h1 => cases e; rcases h with e | e | ⟨e, -⟩ <;> cases e
  | doubleQuoted h1 => cases e; rcases h with e | e | ⟨e, -⟩ <;> cases e
  | pieceBacktick h1 => cases h1; cases e; rcases h with e | e | ⟨e, -⟩ <;> cases e
  | pieceParam h1 => 
    subst e
    rcases h with rfl | rfl | ⟨rfl, -⟩ <;> cases h1

theorem WordTok.rawWord (h : WordTok w t) (he : Gram.EndsWord l) {k} (hr : Reads (B := B) (.rawWord none) b (t :: l) k r b') :
    k = some (.Single (.Simple (.Literal w))) ∧ r = l := by
  generalize e : t :: l = l0 at hr
  cases hr with
  | noWord h1 =>
    subst e
    have := h1.of_noBlank h.noBlank
    cases this
    rcases h with e | e | ⟨e, -⟩ <;> cases e
  | someWord h1 h2 h3 =>
    subst e
    have := h1.of_noBlank h.noBlank
    subst this
    generalize e : t :: l = l0 at h3
    cases h3 with
    | endWord h4 =>
      have := h4 _ _ e.symm
      rcases h with rfl | rfl | ⟨rfl, -⟩ <;> cases this
    | endEscaped => cases e; rcases h with e | e | ⟨e, -⟩ <;> cases e
    | endBackslash => cases e; rcases h with e | e | ⟨e, -⟩ <;> cases e
    | consPiece h4 h5 h6 =>
      subst e
      obtain ⟨rfl, rfl⟩ := h.piece h5
      cases h6 with
      | endWord => exact ⟨rfl, rfl⟩
      | endEscaped => have := he _ _ rfl; cases this
      | endBackslash => have := he _ _ rfl; cases this
      | consPiece h7 h8 h9 =>
        obtain ⟨t', l', rfl, h10, -⟩ := Reads.piece_head h8
        rw [he _ _ rfl] at h10
        cases h10

end

section
variable {w : Str} {t : Token} {l r : List Token} {b b' : DefaultBuilder.State}

/-- The words that end groups. -/
def endWords : List Str := ['}'] :: inner

theorem endWords_fd (h : w ∈ endWords) (n : Nat) : ¬ FdWord (C := SCommand) (.Single (.Simple (.Literal w))) n := by
  rintro ⟨s, h1, h2, h3, h4⟩
  cases h1
  have := signed_unsigned (max := 65535) h2 (by exact_mod_cast h3) h4
  have key : ∀ w ∈ endWords, parseUnsigned 10 65535 w = none := by decide
  rw [key w h] at this
  cases this

theorem endWords_not (h : w ∈ endWords) : w ∉ [FOR, CASE, IF, WHILE, UNTIL, FUNCTION] := by
  revert w; decide

theorem WordTok.redirect (h : WordTok w t) (he : Gram.EndsWord l) (hw : w ∈ endWords) {k}
    (hr : Reads (B := DefaultBuilder) .redirect b (t :: l) k r b') : k = some (.inr (litAst w)) ∧ r = l := by
  cases hr with
  | redirect h1 => have := (h.rawWord he h1).1; cases this
  | redirectFd h1 h2 =>
    have := (h.rawWord he h1).1
    cases this
    exact absurd h2 (endWords_fd hw _)
  | redirectWord h1 h2 h3 =>
    obtain ⟨e1, rfl⟩ := h.rawWord he h1
    cases e1
    cases congrArg Prod.fst h3
    exact ⟨rfl, rfl⟩
  | noRedirect h1 => have := (h.rawWord he h1).1; cases this

theorem WordTok.notAssign (h : WordTok w t) (he : Gram.EndsWord l) : ¬ AssignStart (t :: l) := by
  rintro ⟨x, r, e⟩
  cases e
  have := he _ _ rfl
  cases this

theorem WordTok.assigns (h : WordTok w t) (he : Gram.EndsWord l) (hw : w ∈ endWords) {k}
    (hr : Reads (B := DefaultBuilder) .assigns b (t :: l) k r b') : k = ([], some (litAst w)) ∧ r = l := by
  generalize e : t :: l = l0 at hr
  cases hr with
  | assignEmpty h1 =>
    subst e
    have := h1.of_noBlank h.noBlank
    exact absurd ⟨_, _, this.symm⟩ (h.notAssign he)
  | assign h1 =>
    subst e
    have := h1.of_noBlank h.noBlank
    exact absurd ⟨_, _, this.symm⟩ (h.notAssign he)
  | assignsRedirect h1 h2 h3 =>
    subst e
    have := h1.of_noBlank h.noBlank
    subst this
    have := (h.redirect he hw h3).1
    cases this
  | assignsWord h1 h2 h3 =>
    subst e
    have := h1.of_noBlank h.noBlank
    subst this
    obtain ⟨h4, rfl⟩ := h.redirect he hw h3
    cases h4
    exact ⟨rfl, rfl⟩
  | assignsEnd h1 h2 h3 =>
    subst e
    have := h1.of_noBlank h.noBlank
    subst this
    have := (h.redirect he hw h3).1
    cases this

theorem WordTok.command (h : WordTok w t) (he : Gram.EndsWord l) (hw : w ∈ endWords) {k}
    (hr : Reads (B := DefaultBuilder) .command b (t :: l) k r b') : pipeableOpens k = some w := by
  have hk := endWords_not hw
  have nokw : ∀ x ∈ [FOR, CASE, IF, WHILE, UNTIL, FUNCTION], ∀ r, ¬ Gram.Keyword x (t :: l) r := by
    rintro x hx r ⟨e | e, -⟩ <;> cases e <;> rcases h with e | e | ⟨e, -⟩ <;> cases e <;> exact hk hx
  generalize e : t :: l = l0 at hr
  cases hr with
  | commandCompound h1 h2 =>
    subst e
    have := h1.of_noBlank h.noBlank
    subst this
    generalize e : t :: l = l0 at h2 nokw
    cases h2 with
    | subshell => cases e; rcases h with e | e | ⟨e, -⟩ <;> cases e
    | brace => cases e; rcases h with e | e | ⟨e, -⟩ <;> cases e
    | forKw h' => exact absurd h' (nokw _ (by decide) _)
    | caseKw h' => exact absurd h' (nokw _ (by decide) _)
    | ifKw h' => exact absurd h' (nokw _ (by decide) _)
    | whileKw h' => exact absurd h' (nokw _ (by decide) _)
    | untilKw h' => exact absurd h' (nokw _ (by decide) _)
  | commandFunction h1 h2 h3 h4 =>
    subst e
    have := h1.of_noBlank h.noBlank
    subst this
    have hn : t = .Name w := by
      generalize e : t :: l = l0 at h3 nokw
      cases h3 with
      | keyword h5 => exact absurd h5 (nokw _ (by decide) _)
      | paren => cases e; rcases h with e | e | ⟨e, -⟩ <;> cases e; rfl
      | wsParen => cases e; rcases h with e | e | ⟨e, -⟩ <;> cases e; rfl
    subst hn
    generalize e : Token.Name w :: l = l0 at h4 nokw
    cases h4 with
    | function h5 h6 h7 h8 h9 h10 h11 =>
      subst e
      rcases h5 with ⟨-, l', h5, h12⟩ | ⟨-, rfl, -⟩
      · have := h5.of_noBlank h.noBlank
        subst this
        exact absurd h12 (nokw _ (by decide) _)
      have := h6.of_noBlank h.noBlank
      cases this
      cases congrArg Prod.fst h11
      rfl
    | functionSubshell h5 =>
      subst e
      obtain ⟨l', h5, h6⟩ := h5
      have := h5.of_noBlank h.noBlank
      subst this
      exact absurd h6 (nokw _ (by decide) _)
  | commandSimple h1 h2 h3 h4 =>
    subst e
    have := h1.of_noBlank h.noBlank
    subst this
    cases h4 with
    | simple h5 h6 h7 h8 =>
      obtain ⟨h9, rfl⟩ := h.assigns he hw h5
      cases h9
      cases congrArg Prod.fst h8
      rfl

theorem WordTok.opens (h : WordTok w t) (he : Gram.EndsWord l) (hw : w ∈ endWords) {ns : List Nl} {c : SCommand}
    (hr : Reads (B := DefaultBuilder) (.complete ns) b (t :: l) c r b') : opens c = some w := by
  cases hr with
  | complete h1 h2 h3 =>
    cases h1 with
    | andOr h4 h5 h6 =>
      cases congrArg Prod.fst h6
      cases h4 with
      | pipeline h7 h8 h9 h10 =>
        have := h7.of_noBlank h.noBlank
        subst this
        have : ∀ l', t :: l ≠ .Bang :: l' := by
          rintro l' e; cases e; rcases h with e | e | ⟨e, -⟩ <;> cases e
        rcases h8 with ⟨-, h8⟩ | ⟨rfl, rfl, -⟩
        · exact absurd h8 (this _)
        have key : ∀ {ns : List Nl} {p : SPipeable} {ps : List (List Nl × SPipeable)} {x : ListableCommand SPipeable}
            {b b' : DefaultBuilder.State} {xs}, pipeableOpens p = some w →
            Gram.Calls (B := DefaultBuilder) (.pipeline false ((ns, p) :: ps)) b x b' →
            Spec.opens (.mk (.List ⟨x, xs⟩)) = some w ∧ Spec.opens (.mk (.Job ⟨x, xs⟩)) = some w := by
          intro ns p ps x b b' xs hp hc
          cases ps with
          | nil => cases congrArg Prod.fst hc; exact ⟨hp, hp⟩
          | cons => cases congrArg Prod.fst hc; exact ⟨hp, hp⟩
        have fin : ∀ {x : AndOrList (ListableCommand SPipeable)} {b b' : DefaultBuilder.State} {pre s cm} {a : SCommand},
            Gram.Calls (B := DefaultBuilder) (.completeCommand pre x s cm) b a b' → a = .mk (.List x) ∨ a = .mk (.Job x) := by
          intro x b b' pre s cm a h
          cases s <;> cases congrArg Prod.fst h <;> simp
        cases h9 with
        | pipeLast h11 h12 =>
          rcases fin h3 with rfl | rfl
          · exact (key (h.command he hw h12) h10).1
          · exact (key (h.command he hw h12) h10).2
        | pipeCons h11 h12 h13 h14 =>
          rcases fin h3 with rfl | rfl
          · exact (key (h.command he hw h12) h10).1
          · exact (key (h.command he hw h12) h10).2


/-! ## Operators do not start commands -/

/-- The tokens that end groups and are not words. -/
def EndTok (t : Token) : Prop := t = .ParenClose ∨ t = .DSemi

theorem EndTok.noBlank (h : EndTok t) : Gram.NoBlank (t :: l) := by
  rcases h with rfl | rfl <;> simp [Gram.NoBlank]

theorem EndTok.redirect (h : EndTok t) {k} (hr : Reads (B := DefaultBuilder) .redirect b (t :: l) k r b') :
    k = none ∧ r = t :: l := by
  have raw : ∀ {k r b'}, Reads (B := DefaultBuilder) (.rawWord none) b (t :: l) k r b' → k = none ∧ r = t :: l := by
    intro k r b' hr
    generalize e : t :: l = l0 at hr
    cases hr with
    | noWord h1 =>
      subst e
      have := h1.of_noBlank h.noBlank
      cases this
      rcases h with e | e <;> cases e
    | someWord h1 h2 h3 =>
      subst e
      have := h1.of_noBlank h.noBlank
      subst this
      generalize e : t :: l = l0 at h3
      cases h3 with
      | endWord h4 => exact ⟨rfl, rfl⟩
      | endEscaped => cases e; rcases h with e | e <;> cases e
      | endBackslash => cases e; rcases h with e | e <;> cases e
      | consPiece h4 h5 h6 =>
        subst e
        obtain ⟨_, _, e, h7, -⟩ := Reads.piece_head h5
        cases e
        rcases h with rfl | rfl <;> cases h7
  have hn : t ∉ redirOps := by rcases h with rfl | rfl <;> decide
  cases hr with
  | redirect h1 h2 => cases (raw h1).2; exact absurd h2 hn
  | redirectFd h1 => cases (raw h1).1
  | redirectWord h1 => cases (raw h1).1
  | noRedirect h1 => exact ⟨rfl, (raw h1).2⟩

theorem EndTok.complete (h : EndTok t) {ns : List Nl} {c : SCommand}
    (hr : Reads (B := DefaultBuilder) (.complete ns) b (t :: l) c r b') : False := by
  have ne : ∀ x, x ∈ [Token.Bang, .ParenOpen, .CurlyOpen] → t ≠ x := by
    rcases h with rfl | rfl <;> decide
  have nokw : ∀ x, ∀ r, ¬ Gram.Keyword x (t :: l) r := by
    rintro x r ⟨e | e, -⟩ <;> cases e <;> rcases h with e | e <;> cases e
  have cmd : ∀ {k r b'}, ¬ Reads (B := DefaultBuilder) .command b (t :: l) k r b' := by
    intro k r b' hr
    generalize e : t :: l = l0 at hr
    cases hr with
    | commandCompound h1 h2 =>
      subst e
      have := h1.of_noBlank h.noBlank
      subst this
      generalize e : t :: l = l0 at h2 nokw
      cases h2 with
      | subshell => cases e; exact ne _ (by decide) rfl
      | brace => cases e; exact ne _ (by decide) rfl
      | forKw h' => exact nokw _ _ h'
      | caseKw h' => exact nokw _ _ h'
      | ifKw h' => exact nokw _ _ h'
      | whileKw h' => exact nokw _ _ h'
      | untilKw h' => exact nokw _ _ h'
    | commandFunction h1 h2 h3 h4 =>
      subst e
      have := h1.of_noBlank h.noBlank
      subst this
      generalize e : t :: l = l0 at h3 nokw
      cases h3 with
      | keyword h5 => exact nokw _ _ h5
      | paren => cases e; rcases h with e | e <;> cases e
      | wsParen => cases e; rcases h with e | e <;> cases e
    | commandSimple h1 h2 h3 h4 =>
      subst e
      have := h1.of_noBlank h.noBlank
      subst this
      cases h4 with
      | simple h5 h6 h7 h8 =>
        generalize e : t :: l = l0 at h5
        have na : ∀ x r, t :: l ≠ .Name x :: r := by rintro x r e; cases e; rcases h with e | e <;> cases e
        cases h5 with
        | assignEmpty h1 => subst e; exact na _ _ (h1.of_noBlank h.noBlank).symm
        | assign h1 => subst e; exact na _ _ (h1.of_noBlank h.noBlank).symm
        | assignsRedirect h1 h2 h3 =>
          subst e
          have := h1.of_noBlank h.noBlank
          subst this
          cases (h.redirect h3).1
        | assignsWord h1 h2 h3 =>
          subst e
          have := h1.of_noBlank h.noBlank
          subst this
          cases (h.redirect h3).1
        | assignsEnd h1 h2 h3 =>
          subst e
          have := h1.of_noBlank h.noBlank
          subst this
          obtain rfl := (h.redirect h3).2
          cases h6 with
          | argsRedirect h9 => cases (h.redirect h9).1
          | argsWord h9 => cases (h.redirect h9).1
          | argsEnd => simp at h7
  cases hr with
  | complete h1 h2 h3 =>
    cases h1 with
    | andOr h4 h5 h6 =>
      cases h4 with
      | pipeline h7 h8 h9 h10 =>
        have := h7.of_noBlank h.noBlank
        subst this
        rcases h8 with ⟨-, h8⟩ | ⟨rfl, rfl, -⟩
        · cases h8; exact ne _ (by decide) rfl
        cases h9 with
        | pipeLast h11 h12 => exact cmd h12
        | pipeCons h11 h12 => exact cmd h12

/-! ## A script as a group -/

/-- The words that end a group. -/
def groupEnds (cfg : Delims) : List Str := cfg.reservedTokens.map Token.asStr ++ cfg.reservedWords

/-- The groups of compound commands. -/
structure Grp (cfg : Delims) : Prop where
  exact : ∀ t ∈ cfg.exactTokens, EndTok t
  words : ∀ x ∈ cfg.reservedWords, x ∈ inner
  toks : ∀ t ∈ cfg.reservedTokens, t = .CurlyClose

/-- Commands up to a delimiter are a group. -/
theorem ProgTo.group {cfg : Delims} (hg : Grp cfg) {cs : List SCommand} (h : ProgTo (B := DefaultBuilder) r b l cs b')
    (hd : Gram.AtDelim cfg r ∨ r = []) (hc : ∀ c ∈ cs, ∀ w ∈ groupEnds cfg, Spec.opens c ≠ some w) :
    ∃ ns, Reads (B := DefaultBuilder) (.group cfg) b l ⟨cs, ns⟩ r b' := by
  induction h with
  | done h1 => exact ⟨_, .groupEnd h1 hd⟩
  | @cons b l c r1 b1 cs b2 h1 h2 ih =>
    obtain ⟨ns, ih⟩ := ih fun c hc' => hc c (by simp [hc'])
    cases h1 with
    | topCommand h3 h4 h5 =>
      refine ⟨ns, .groupCons h3 ?_ h4 h5 ih⟩
      have hc := hc c (by simp)
      rintro (⟨t', k1, r, rfl⟩ | ⟨x, k1, r, k2, k3⟩ | ⟨t', k1, r, rfl, k3⟩)
      · exact (hg.exact _ k1).complete h5
      · have hx : x ∈ endWords := by simp [endWords, hg.words x k1]
        refine hc x (by simp [groupEnds, k1]) ?_
        rcases k2 with rfl | rfl
        · exact WordTok.opens (t := .Name x) (.inl rfl) k3 hx h5
        · exact WordTok.opens (t := .Literal x) (.inr (.inl rfl)) k3 hx h5
      · obtain rfl := hg.toks _ k1
        exact hc ['}'] (by simp [groupEnds]; exact .inl ⟨_, k1, rfl⟩) (WordTok.opens (.inr (.inr ⟨rfl, rfl⟩)) k3 (by decide) h5)

end
end Conch
