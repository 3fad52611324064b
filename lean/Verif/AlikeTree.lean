import Verif.AlikeArith
/-!
# C56: what is read from sources that differ only in names, text and blanks
-/
namespace Conch
open Gram
open Spec (Alike keywords)

/-- The same non-terminal, for another parameter and other comments. -/
@[reducible] def _root_.Conch.Gram.NT.swap : NT → DefaultParameter → List Nl → NT
  | .curly _, q, _ => .curly q
  | .complete _, _, ns => .complete ns
  | .forWords _, _, ns => .forWords ns
  | n, _, _ => n

/-- Groups with the same commands. -/
def GRel {C : Type} (g h : CommandGroup C) : Prop :=
  g.commands = h.commands ∧ g.trailingComments.length = h.trailingComments.length

/-- What the builder uses of an `if` command. -/
def ifOf {C : Type} (f : IfFragments C) : List (GuardBodyPair C) × Option (List C) :=
  (f.conditionals.map fun p => { guard := p.guard.commands, body := p.body.commands }, f.elseBranch.map (·.commands))

/-- What the builder uses of the arms of a `case` command. -/
def armsOf {W C : Type} (as : List (CaseArm W C)) : List (PatternBodyPair W C) :=
  as.map fun a => { patterns := a.patterns.patternAlternatives, body := a.body.commands }

/-- Results that differ only in their text. -/
@[reducible] def RR (K : Core) : (n : NT) → (q : DefaultParameter) → (ns : List Nl) → n.Res K.builder → (n.swap q ns).Res K.builder → Prop
  | .piece, _, _ => WRel K
  | .pieces _, _, _ | .substPieces _, _, _ => List.Forall₂ (WRel K)
  | .rawWord _, _, _ | .substWord, _, _ => ORel (CRel K)
  | .wordP, _, _ | .word, _, _ => Eq
  | .words, _, _ | .patterns, _, _ => Eq
  | .interpParts _, _, _ => List.Forall₂ (IRel K)
  | .interp _, _, _ => List.Forall₂ (SRel K)
  | .param, _, _ | .curly _, _, _ | .backtick, _, _ => SRel K
  | .subshell _, _, _ | .group _, _, _ | .brace, _, _ | .doGroup, _, _ => GRel
  | .redirTail _, _, _ | .heredoc _, _, _ => Eq
  | .redirect, _, _ => Eq
  | .redirects, _, _ => Eq
  | .assigns, _, _ => fun a a' => a.1.map K.mapEnvVar = a'.1.map K.mapEnvVar ∧ a.2 = a'.2
  | .args, _, _ => Eq
  | .simple, _, _ | .function, _, _ | .command, _, _ => Eq
  | .ifArms, _, _ | .ifCommand, _, _ => fun f f' => ifOf f = ifOf f'
  | .loopCommand, _, _ => fun p p' => p.1 = p'.1 ∧ p.2.guard.commands = p'.2.guard.commands ∧ p.2.body.commands = p'.2.body.commands
  | .forWords _, _, _ => fun a a' => a.1.map (·.2.1) = a'.1.map (·.2.1)
  | .forCommand, _, _ => fun f f' => f.words.map (·.2.1) = f'.words.map (·.2.1) ∧ f.body.commands = f'.body.commands
  | .arms, _, _ => fun a a' => armsOf a.1 = armsOf a'.1
  | .caseCommand, _, _ => fun f f' => f.word = f'.word ∧ armsOf f.arms = armsOf f'.arms
  | .compound _, _, _ => Eq
  | .fnStart _, _, _ => Eq
  | .pipelineCmds, _, _ => fun a a' => a.map (·.2) = a'.map (·.2)
  | .pipeline, _, _ => Eq
  | .andOrRest, _, _ => fun a a' => a.map (·.2) = a'.map (·.2)
  | .andOr, _, _ => Eq
  | .complete _, _, _ => Eq
  | .top, _, _ => Eq

/-- Fixed closing tokens and delimiters; the same parameter up to its name. -/
@[reducible] def _root_.Conch.Gram.NT.Pre (K : Core) : NT → DefaultParameter → Prop
  | .pieces d, _ | .rawWord d, _ | .interpParts d, _ | .interp d, _ => ∀ t, d = some t → Lone t
  | .group cfg, _ => cfg.Plain
  | .curly q, q2 => mapParam K.ofString q = mapParam K.ofString q2
  | _, _ => True

/-! ## Helpers -/

theorem Al.startNe {d : Option Token} (hp : ∀ t, d = some t → Lone t) {l l' : List Token} (h : Al l l')
    (h1 : ∀ t r, l = t :: r → d ≠ some t) : ∀ t r, l' = t :: r → d ≠ some t := by
  rintro t r rfl rfl
  cases h with
  | cons h2 h3 => exact h1 _ _ rfl (by rw [(hp _ rfl).eq' h2])

theorem Spec.Alike.is_literal {x : Str} {t : Token} (h : Alike (.Literal x) t) : ∃ y, t = .Literal y := by cases h <;> exact ⟨_, rfl⟩

theorem Al.skip_name {l l' r : List Token} {x : Str} (h : Al l l') (hs : Gram.Skip l (.Name x :: r)) :
    ∃ y r', Gram.Skip l' (.Name y :: r') ∧ Al r r' := by
  obtain ⟨r', h1, h2⟩ := h.skip hs
  cases h2 with
  | cons h3 h4 => obtain ⟨y, rfl⟩ := h3.is_name; exact ⟨_, _, h1, h4⟩

theorem lone_mem {l : List Token} (hl : ∀ t ∈ l, Lone t) {t t' : Token} (h : Alike t t') : t ∈ l ↔ t' ∈ l :=
  ⟨fun h1 => by rw [(hl _ h1).eq h]; exact h1, fun h1 => by rw [(hl _ h1).eq' h]; exact h1⟩

theorem lone_literalTokens : ∀ t ∈ literalTokens, Lone t := by
  simp only [literalTokens, List.forall_mem_cons, List.not_mem_nil, false_implies, implies_true, and_true]
  refine ⟨?_, ?_, ?_, ?_, ?_, ?_, ?_, ?_, ?_, ?_, ?_, ?_⟩ <;> lone

theorem lone_quotable : ∀ t ∈ quotable, Lone t := by
  simp only [quotable, List.forall_mem_cons, List.not_mem_nil, false_implies, implies_true, and_true]
  refine ⟨?_, ?_, ?_, ?_, ?_⟩ <;> lone

theorem lone_redirOps : ∀ t ∈ redirOps, Lone t := by
  simp only [redirOps, List.forall_mem_cons, List.not_mem_nil, false_implies, implies_true, and_true]
  refine ⟨?_, ?_, ?_, ?_, ?_, ?_, ?_, ?_, ?_⟩ <;> lone

theorem lone_special {C : Type} : ∀ p ∈ specialTokens C, Lone p.1 := by
  simp only [specialTokens, List.forall_mem_cons, List.not_mem_nil, false_implies, implies_true, and_true]
  refine ⟨?_, ?_, ?_, ?_, ?_, ?_⟩ <;> lone

theorem lone_params : ∀ p ∈ specialParams, Lone p.1 := by
  simp only [specialParams, List.forall_mem_cons, List.not_mem_nil, false_implies, implies_true, and_true]
  refine ⟨?_, ?_, ?_, ?_, ?_, ?_, ?_⟩ <;> lone

theorem lone_substOps {C : Type} : ∀ p ∈ substOps C, Lone p.1 := by
  simp only [substOps, List.forall_mem_cons, List.not_mem_nil, false_implies, implies_true, and_true]
  refine ⟨?_, ?_, ?_, ?_⟩ <;> lone

theorem lone_pathOps {W : Type} : ∀ p ∈ pathOps W, Lone p.1 := by
  simp only [pathOps, List.forall_mem_cons, List.not_mem_nil, false_implies, implies_true, and_true]
  refine ⟨?_, ?_, ?_, ?_, ?_⟩ <;> lone

theorem lone_dupOps {W : Type} : ∀ p ∈ dupOps W, Lone p.1 := by
  simp only [dupOps, List.forall_mem_cons, List.not_mem_nil, false_implies, implies_true, and_true]
  refine ⟨?_, ?_⟩ <;> lone

theorem plain_paren : parenDelim.Plain := ⟨fun t ht => by rw [List.mem_singleton.1 ht]; lone, nofun, nofun⟩
theorem plain_brace : braceDelim.Plain := ⟨nofun, nofun, fun t ht => by rw [List.mem_singleton.1 ht]; lone⟩
theorem plain_arm : armDelim.Plain := ⟨fun t ht => by rw [List.mem_singleton.1 ht]; lone, by decide, nofun⟩
theorem plain_none : noDelim.Plain := ⟨nofun, nofun, nofun⟩
theorem plain_words {ws : List Str} (h : ∀ w ∈ ws, w ∈ keywords) : (wordDelim ws).Plain := ⟨nofun, h, nofun⟩

theorem loopWord_mem (k : LoopKind) : loopWord k ∈ keywords := by cases k <;> decide

theorem Al.opt {t : Token} (ht : Lone t) {l1 l2 m1 : List Token} (h : Al l1 m1)
    (h1 : l1 = t :: l2 ∨ l2 = l1 ∧ ∀ l', l1 ≠ t :: l') : ∃ m2, (m1 = t :: m2 ∨ m2 = m1 ∧ ∀ l', m1 ≠ t :: l') ∧ Al l2 m2 := by
  rcases h1 with rfl | ⟨rfl, h1⟩
  · cases h with
    | cons h2 h3 => rw [ht.eq h2]; exact ⟨_, .inl rfl, h3⟩
  · exact ⟨_, .inr ⟨rfl, h.ne ht h1⟩, h⟩

theorem ifOf_cons {C : Type} {g g2 t t2 : CommandGroup C} {cs cs2 : List (GuardBodyPairGroup C)} {e e2 : Option (CommandGroup C)}
    (h1 : GRel g g2) (h2 : GRel t t2) (h3 : ifOf ⟨cs, e⟩ = ifOf ⟨cs2, e2⟩) :
    ifOf ⟨⟨g, t⟩ :: cs, e⟩ = ifOf ⟨⟨g2, t2⟩ :: cs2, e2⟩ := by
  simp only [ifOf, Prod.mk.injEq] at h3
  simp only [ifOf, List.map_cons, h1.1, h2.1, h3.1, h3.2]

theorem ifOf_nil {C : Type} {e e2 : CommandGroup C} (h : GRel e e2) : ifOf ⟨[], some e⟩ = ifOf ⟨[], some e2⟩ := by
  simp only [ifOf, List.map_nil, Option.map_some, h.1]

theorem armsOf_cons {W C : Type} {pre pre2 : List Nl} {ps : List W} {c c2 ac ac2 : Option Nl} {g g2 : CommandGroup C}
    {as as2 : List (CaseArm W C)} (h1 : GRel g g2) (h2 : armsOf as = armsOf as2) :
    armsOf (⟨⟨pre, ps, c⟩, g, ac⟩ :: as) = armsOf (⟨⟨pre2, ps, c2⟩, g2, ac2⟩ :: as2) := by
  simp only [armsOf] at h2
  simp only [armsOf, List.map_cons, h1.1, h2]

theorem GRel.empty {C : Type} {g h : CommandGroup C} (h1 : GRel g h) (h2 : h = ⟨[], []⟩) : g = ⟨[], []⟩ := by
  subst h2
  obtain ⟨cs, ns⟩ := g
  obtain ⟨h1, h2⟩ := h1
  simp only at h1 h2
  rw [h1, List.length_eq_zero_iff.1 h2]

theorem GRel.ne {C : Type} {g h : CommandGroup C} (h1 : GRel g h) (h2 : g.commands ≠ []) : h.commands ≠ [] := by
  rw [← h1.1]; exact h2

section
variable {K : Core}

theorem pound_iff {q q2 : DefaultParameter} (h : mapParam K.ofString q = mapParam K.ofString q2) : q = .Pound ↔ q2 = .Pound := by
  constructor
  · rintro rfl; cases q2 <;> first | rfl | (simp [mapParam] at h)
  · rintro rfl; cases q <;> first | rfl | (simp [mapParam] at h)

theorem ORel.none_iff {α : Type} {R : α → α → Prop} {a b : Option α} (h : ORel R a b) : a = Option.none ↔ b = Option.none := by
  cases h <;> simp

section
variable (hK : ∀ x y, K.ofString x = K.ofString y)
include hK

theorem paramName_alike {t t' : Token} {q : DefaultParameter} (h : ParamName t q) (e : Alike t t') :
    ∃ q', ParamName t' q' ∧ mapParam K.ofString q = mapParam K.ofString q' := by
  cases h with
  | special h1 => obtain rfl := (lone_params _ h1).eq e; exact ⟨_, .special h1, rfl⟩
  | var => obtain ⟨y, rfl⟩ := e.is_name; exact ⟨_, .var, congrArg Parameter.Var (hK _ _)⟩

theorem paramIn_alike {t t' : Token} {q : DefaultParameter} (h : ParamIn t q) (e : Alike t t') :
    ∃ q', ParamIn t' q' ∧ mapParam K.ofString q = mapParam K.ofString q' := by
  cases h with
  | name h1 => obtain ⟨q', h2, h3⟩ := paramName_alike hK h1 e; exact ⟨q', .name h2, h3⟩
  | number h1 h2 h3 =>
    cases e with
    | same => exact ⟨_, .number h1 h2 h3, rfl⟩
    | text _ _ h4 => exact absurd (odd_of_text h4) (signed_not_odd h1)

theorem ORel.word {w w2 : Option (ComplexWordKind K.C)} (h : ORel (CRel K) w w2) : w.map K.word = w2.map K.word := by
  cases h with
  | none => rfl
  | some h => exact congrArg Option.some (h.eq hK)

theorem substOps_eq {t : Token} {mk : SubstMk K.C} (h : (t, mk) ∈ substOps K.C) {c : Bool} {q q2 : DefaultParameter}
    {w w2 : Option (ComplexWordKind K.C)} (hq : mapParam K.ofString q = mapParam K.ofString q2) (hw : ORel (CRel K) w w2) :
    K.substOf (mk c q w) = K.substOf (mk c q2 w2) := by
  have hw := hw.word hK
  simp only [substOps, List.mem_cons, List.not_mem_nil, or_false, Prod.mk.injEq] at h
  rcases h with h | h | h | h <;> obtain ⟨rfl, rfl⟩ := h <;> simp only [Core.substOf, hq, hw]

theorem alike_word {k k2 : ComplexWordKind K.C} (h : CRel K k k2) {b b' : K.builder.State} {w : K.W}
    (hc : Gram.Calls (B := K.builder) (.word k) b w b') : Gram.Calls (B := K.builder) (.word k2) b w b' := by
  have : (K.call (.word k2), b) = (K.call (.word k), b) := by simp only [Core.call, h.eq hK]
  exact this.trans hc

theorem alike_function {x y : Str} {ns ns2 : List Nl} {c : K.types.CompoundCommand} {b b' : K.builder.State} {w : K.types.PipeableCommand}
    (hc : Gram.Calls (B := K.builder) (.functionDeclaration x ns c) b w b') :
    Gram.Calls (B := K.builder) (.functionDeclaration y ns2 c) b w b' := by
  have : (K.call (.functionDeclaration y ns2 c), b) = (K.call (.functionDeclaration x ns c), b) := by
    simp only [Core.call, hK y x]
  exact this.trans hc

theorem alike_for {f f2 : ForFragments K.W K.C} (h1 : f.words.map (·.2.1) = f2.words.map (·.2.1))
    (h2 : f.body.commands = f2.body.commands) {io} {b b' : K.builder.State} {w}
    (hc : Gram.Calls (B := K.builder) (.forCommand f io) b w b') : Gram.Calls (B := K.builder) (.forCommand f2 io) b w b' := by
  have : (K.call (.forCommand f2 io), b) = (K.call (.forCommand f io), b) := by
    simp only [Core.call, hK f2.var f.var, h1, h2]
  exact this.trans hc

end

theorem alike_simple {vs vs2 : List (RedirectOrEnvVar (Redirect K.W) Str K.W)} (h : vs.map K.mapEnvVar = vs2.map K.mapEnvVar)
    {ws} {b b' : K.builder.State} {w} (hc : Gram.Calls (B := K.builder) (.simpleCommand vs ws) b w b') :
    Gram.Calls (B := K.builder) (.simpleCommand vs2 ws) b w b' := by
  have : (K.call (.simpleCommand vs2 ws), b) = (K.call (.simpleCommand vs ws), b) := by simp only [Core.call, h]
  exact this.trans hc

theorem alike_brace {g g2 : CommandGroup K.C} (h : GRel g g2) {io} {b b' : K.builder.State} {w}
    (hc : Gram.Calls (B := K.builder) (.braceGroup g io) b w b') : Gram.Calls (B := K.builder) (.braceGroup g2 io) b w b' := by
  have : (K.call (.braceGroup g2 io), b) = (K.call (.braceGroup g io), b) := by simp only [Core.call, h.1]
  exact this.trans hc

theorem alike_subshell {g g2 : CommandGroup K.C} (h : GRel g g2) {io} {b b' : K.builder.State} {w}
    (hc : Gram.Calls (B := K.builder) (.subshell g io) b w b') : Gram.Calls (B := K.builder) (.subshell g2 io) b w b' := by
  have : (K.call (.subshell g2 io), b) = (K.call (.subshell g io), b) := by simp only [Core.call, h.1]
  exact this.trans hc

theorem alike_loop {k : LoopKind} {p p2 : GuardBodyPairGroup K.C} (h1 : p.guard.commands = p2.guard.commands)
    (h2 : p.body.commands = p2.body.commands) {io} {b b' : K.builder.State} {w}
    (hc : Gram.Calls (B := K.builder) (.loopCommand k p io) b w b') : Gram.Calls (B := K.builder) (.loopCommand k p2 io) b w b' := by
  have : (K.call (.loopCommand k p2 io), b) = (K.call (.loopCommand k p io), b) := by
    cases k <;> simp only [Core.call, h1, h2]
  exact this.trans hc

theorem alike_if {f f2 : IfFragments K.C} (h : ifOf f = ifOf f2) {io} {b b' : K.builder.State} {w}
    (hc : Gram.Calls (B := K.builder) (.ifCommand f io) b w b') : Gram.Calls (B := K.builder) (.ifCommand f2 io) b w b' := by
  simp only [ifOf, Prod.mk.injEq] at h
  have : (K.call (.ifCommand f2 io), b) = (K.call (.ifCommand f io), b) := by simp only [Core.call, h.1, h.2]
  exact this.trans hc

theorem alike_case {f f2 : CaseFragments K.W K.C} (h1 : f.word = f2.word) (h2 : armsOf f.arms = armsOf f2.arms) {io}
    {b b' : K.builder.State} {w} (hc : Gram.Calls (B := K.builder) (.caseCommand f io) b w b') :
    Gram.Calls (B := K.builder) (.caseCommand f2 io) b w b' := by
  have h2 : (f.arms.map fun a => ({ patterns := a.patterns.patternAlternatives, body := a.body.commands } : PatternBodyPair _ _)) =
    (f2.arms.map fun a => { patterns := a.patterns.patternAlternatives, body := a.body.commands }) := h2
  have : (K.call (.caseCommand f2 io), b) = (K.call (.caseCommand f io), b) := by simp only [Core.call, h1, h2]
  exact this.trans hc

theorem alike_pipeline {bang : Bool} {cs cs2 : List (List Nl × K.types.PipeableCommand)} (h : cs.map (·.2) = cs2.map (·.2))
    {b b' : K.builder.State} {w} (hc : Gram.Calls (B := K.builder) (.pipeline bang cs) b w b') :
    Gram.Calls (B := K.builder) (.pipeline bang cs2) b w b' := by
  have : (K.call (.pipeline bang cs2), b) = (K.call (.pipeline bang cs), b) := by simp only [Core.call, h]
  exact this.trans hc

theorem alike_andOr {c : K.types.ListableCommand} {cs cs2 : List (List Nl × AndOr K.types.ListableCommand)}
    (h : cs.map (·.2) = cs2.map (·.2)) {b b' : K.builder.State} {w}
    (hc : Gram.Calls (B := K.builder) (.andOrList c cs) b w b') : Gram.Calls (B := K.builder) (.andOrList c cs2) b w b' := by
  have : (K.call (.andOrList c cs2), b) = (K.call (.andOrList c cs), b) := by simp only [Core.call, h]
  exact this.trans hc

theorem alike_complete {c : K.types.CommandList} {s : SeparatorKind} {ns ns2 : List Nl} {cm cm2 : Option Nl}
    {b b' : K.builder.State} {w : K.C} (hc : Gram.Calls (B := K.builder) (.completeCommand ns c s cm) b w b') :
    Gram.Calls (B := K.builder) (.completeCommand ns2 c s cm2) b w b' := by
  cases s <;> exact hc


theorem pre_dq : ∀ t, some Token.DoubleQuote = some t → Lone t := by rintro t h; cases h; lone

theorem pre_none : ∀ t : Token, none = some t → Lone t := nofun

theorem alike_comments {ns ns2 : List Nl} {b b' : K.builder.State}
    (hc : Gram.Calls (B := K.builder) (.comments ns) b () b') : Gram.Calls (B := K.builder) (.comments ns2) b () b' := hc

/-- What is read does not depend on names, texts and blanks. -/
theorem reads_alike (hK : ∀ x y, K.ofString x = K.ofString y) {n : NT} {b : K.builder.State} {l : List Token}
    {a : n.Res K.builder} {r : List Token} {b' : K.builder.State} (h : Reads n b l a r b') :
    ∀ q2 ns2 l2, n.Pre K q2 → Al l l2 → ∃ a2 r2, Reads (n.swap q2 ns2) b l2 a2 r2 b' ∧ Al r r2 ∧ RR K n q2 ns2 a a2 := by
  induction h with
  | literal h1 =>
    intro q2 ns2 l2 hp e
    obtain _ | ⟨e1, e2⟩ := e
    obtain rfl := (lone_literalTokens _ h1).eq e1
    exact ⟨_, _, .literal h1, e2, .simple .same⟩
  | name =>
    intro q2 ns2 l2 hp e
    obtain _ | ⟨e1, e2⟩ := e
    obtain ⟨y, rfl⟩ := e1.is_name
    exact ⟨_, _, .name, e2, .simple (.lit e1.txt)⟩
  | text =>
    intro q2 ns2 l2 hp e
    obtain _ | ⟨e1, e2⟩ := e
    obtain ⟨y, rfl⟩ := e1.is_literal
    exact ⟨_, _, .text, e2, .simple (.lit e1.txt)⟩
  | special h1 =>
    intro q2 ns2 l2 hp e
    obtain _ | ⟨e1, e2⟩ := e
    obtain rfl := (lone_special _ h1).eq e1
    exact ⟨_, _, .special h1, e2, .simple .same⟩
  | escaped h1 =>
    intro q2 ns2 l2 hp e
    obtain _ | ⟨⟨⟩, _ | ⟨e1, e2⟩⟩ := e
    have hn : Lone .Newline := by lone
    refine ⟨_, _, .escaped ?_, e2, .simple (.esc e1.txt)⟩
    rintro rfl
    exact h1 (hn.eq' e1)
  | singleQuoted h1 =>
    intro q2 ns2 l2 hp e
    obtain ⟨x1, x2, rfl, e1, e2⟩ := e.append
    obtain _ | ⟨⟨⟩, e3⟩ := e1
    obtain _ | ⟨⟨⟩, e4⟩ := e2
    exact ⟨_, _, .singleQuoted (e3.all_ne (by lone) h1), e4, .single e3.concat⟩
  | doubleQuoted _ ih =>
    intro q2 ns2 l2 hp e
    obtain _ | ⟨⟨⟩, e1⟩ := e
    obtain ⟨a1, r1, k1, e2, j1⟩ := ih .Star [] _ pre_dq e1
    exact ⟨_, _, .doubleQuoted k1, e2, .double j1⟩
  | pieceBacktick _ ih =>
    intro q2 ns2 l2 hp e
    obtain ⟨a1, r1, k1, e2, j1⟩ := ih .Star [] _ trivial e
    exact ⟨_, _, .pieceBacktick k1, e2, .simple j1⟩
  | pieceParam _ ih =>
    intro q2 ns2 l2 hp e
    obtain ⟨a1, r1, k1, e2, j1⟩ := ih .Star [] _ trivial e
    exact ⟨_, _, .pieceParam k1, e2, .simple j1⟩
  | endWord h1 =>
    intro q2 ns2 l2 hp e
    exact ⟨_, _, .endWord (e.endsWord h1), e, .nil⟩
  | endCurly =>
    intro q2 ns2 l2 hp e
    cases e with
    | cons e1 e2 =>
      have := (hp _ rfl).eq e1
      subst this
      exact ⟨_, _, .endCurly, .cons e1 e2, .nil⟩
  | endEscaped h1 =>
    intro q2 ns2 l2 hp e
    obtain _ | ⟨⟨⟩, _ | ⟨⟨⟩, e2⟩⟩ := e
    exact ⟨_, _, .endEscaped h1, e2, .nil⟩
  | endBackslash h1 =>
    intro q2 ns2 l2 hp e
    obtain _ | ⟨⟨⟩, _ | _⟩ := e
    exact ⟨_, _, .endBackslash h1, .nil, .nil⟩
  | consPiece h1 _ _ ih1 ih2 =>
    intro q2 ns2 l2 hp e
    obtain ⟨a1, r1, k1, e1, j1⟩ := ih1 .Star [] _ trivial e
    obtain ⟨a2, r2, k2, e2, j2⟩ := ih2 .Star [] _ hp e1
    exact ⟨_, _, .consPiece (e.startNe hp h1) k1 k2, e2, .cons j1 j2⟩
  | noWord h1 =>
    intro q2 ns2 l2 hp e
    obtain ⟨r1, s1, e1⟩ := e.skip_cons (by lone) h1
    exact ⟨_, _, .noWord s1, .cons (.same nofun nofun) e1, .none⟩
  | someWord h1 h2 _ ih =>
    intro q2 ns2 l2 hp e
    obtain ⟨r1, s1, e1⟩ := e.skip h1
    obtain ⟨a2, r2, k2, e2, j2⟩ := ih .Star [] _ hp e1
    exact ⟨_, _, .someWord s1 (e1.ne (by lone) h2) k2, e2, wordOf_rel j2⟩
  | wordPSome _ hc ih =>
    intro q2 ns2 l2 hp e
    obtain ⟨a2, r2, k2, e2, j2⟩ := ih .Star [] _ pre_none e
    cases j2 with
    | some j2 => exact ⟨_, _, .wordPSome k2 (alike_word hK j2 hc), e2, rfl⟩
  | wordPNone _ ih =>
    intro q2 ns2 l2 hp e
    obtain ⟨a2, r2, k2, e2, j2⟩ := ih .Star [] _ pre_none e
    cases j2 with
    | none => exact ⟨_, _, .wordPNone k2, e2, rfl⟩
  | word _ h1 ih =>
    intro q2 ns2 l2 hp e
    obtain ⟨a2, r2, k2, e2, j2⟩ := ih .Star [] _ trivial e
    obtain rfl : _ = _ := j2
    obtain ⟨r3, s3, e3⟩ := e2.skip h1
    exact ⟨_, _, .word k2 s3, e3, rfl⟩
  | wordsNil _ ih =>
    intro q2 ns2 l2 hp e
    obtain ⟨a2, r2, k2, e2, j2⟩ := ih .Star [] _ trivial e
    obtain rfl : _ = _ := j2
    exact ⟨_, _, .wordsNil k2, e2, rfl⟩
  | wordsCons _ _ ih1 ih2 =>
    intro q2 ns2 l2 hp e
    obtain ⟨a1, r1, k1, e1, j1⟩ := ih1 .Star [] _ trivial e
    obtain rfl : _ = _ := j1
    obtain ⟨a2, r2, k2, e2, j2⟩ := ih2 .Star [] _ trivial e1
    obtain rfl : _ = _ := j2
    exact ⟨_, _, .wordsCons k1 k2, e2, rfl⟩
  | interpEnd =>
    intro q2 ns2 l2 hp e
    cases e with
    | cons e1 e2 =>
      have := (hp _ rfl).eq e1
      subst this
      exact ⟨_, _, .interpEnd, e2, .nil⟩
  | interpEof =>
    intro q2 ns2 l2 hp e
    cases e
    exact ⟨_, _, .interpEof, .nil, .nil⟩
  | interpParam h1 _ _ ih1 ih2 =>
    intro q2 ns2 l2 hp e
    obtain ⟨a1, r1, k1, e1, j1⟩ := ih1 .Star [] _ trivial e
    obtain ⟨a2, r2, k2, e2, j2⟩ := ih2 .Star [] _ hp e1
    exact ⟨_, _, .interpParam (e.startNe hp h1) k1 k2, e2, .cons (.part j1) j2⟩
  | interpBacktick h1 _ _ ih1 ih2 =>
    intro q2 ns2 l2 hp e
    obtain ⟨a1, r1, k1, e1, j1⟩ := ih1 .Star [] _ trivial e
    obtain ⟨a2, r2, k2, e2, j2⟩ := ih2 .Star [] _ hp e1
    exact ⟨_, _, .interpBacktick (e.startNe hp h1) k1 k2, e2, .cons (.part j1) j2⟩
  | interpEscaped h1 h2 _ ih =>
    intro q2 ns2 l2 hp e
    obtain _ | ⟨⟨⟩, _ | ⟨e1, e2⟩⟩ := e
    obtain ⟨a2, r2, k2, e3, j2⟩ := ih .Star [] _ hp e2
    have hl : Lone _ := h2.elim (lone_quotable _) (hp _)
    obtain rfl := hl.eq e1
    exact ⟨_, _, .interpEscaped h1 h2 k2, e3, .cons (.part .same) j2⟩
  | interpBackslash h1 h2 h3 _ ih =>
    intro q2 ns2 l2 hp e
    obtain _ | ⟨⟨⟩, e1⟩ := e
    obtain ⟨a2, r2, k2, e3, j2⟩ := ih .Star [] _ hp e1
    refine ⟨_, _, .interpBackslash h1 ?_ (fun h => h3 (e1.nil_iff.2 h)) k2, e3, .cons (.text (.refl _)) j2⟩
    rintro t r rfl
    cases e1 with
    | cons e4 e5 =>
      obtain ⟨h4, h5⟩ := h2 _ _ rfl
      exact ⟨fun h => h4 ((lone_mem lone_quotable e4).2 h), fun h => h5 (by rw [h, (hp _ h).eq' e4])⟩
  | interpText h1 h2 h3 _ ih =>
    intro q2 ns2 l2 hp e
    obtain _ | ⟨e1, e2⟩ := e
    obtain ⟨a2, r2, k2, e3, j2⟩ := ih .Star [] _ hp e2
    refine ⟨_, _, .interpText (fun h => h1 (by rw [h, (hp _ h).eq' e1])) (fun h => h2 ?_) ?_ k2, e3, .cons (.text e1.txt) j2⟩
    · refine (lone_mem ?_ e1).2 h
      simp only [List.forall_mem_cons, List.not_mem_nil, false_implies, implies_true, and_true]
      refine ⟨?_, ?_, ?_⟩ <;> lone
    · rintro p rfl
      have hl : Lone (.ParamPositional p) := by lone
      exact h3 p (hl.eq' e1)
  | interp _ ih =>
    intro q2 ns2 l2 hp e
    obtain ⟨a2, r2, k2, e3, j2⟩ := ih .Star [] _ hp e
    exact ⟨_, _, .interp k2, e3, gather_rel j2 (.refl _)⟩
  | positional =>
    intro q2 ns2 l2 hp e
    obtain _ | ⟨⟨⟩, e1⟩ := e
    exact ⟨_, _, .positional, e1, .same⟩
  | parameter h1 =>
    intro q2 ns2 l2 hp e
    obtain _ | ⟨⟨⟩, _ | ⟨e1, e2⟩⟩ := e
    obtain ⟨q', h2, h3⟩ := paramName_alike hK h1 e1
    exact ⟨_, _, .parameter h2, e2, .param h3⟩
  | loneDollar h1 =>
    intro q2 ns2 l2 hp e
    obtain _ | ⟨⟨⟩, e1⟩ := e
    refine ⟨_, _, .loneDollar ?_, e1, .same⟩
    rintro t r rfl
    cases e1 with
    | cons e2 e3 =>
      obtain ⟨h2, h3, h4⟩ := h1 _ _ rfl
      have hl1 : Lone .ParenOpen := by lone
      have hl2 : Lone .CurlyOpen := by lone
      refine ⟨?_, ?_, fun q h => ?_⟩
      · rintro rfl; exact h2 (hl1.eq' e2)
      · rintro rfl; exact h3 (hl2.eq' e2)
      · obtain ⟨q', h5, -⟩ := paramName_alike hK h e2.symm
        exact h4 _ h5
  | arithmetic h1 h2 h3 h4 h5 h6 =>
    intro q2 ns2 l2 hp e
    obtain _ | ⟨⟨⟩, _ | ⟨⟨⟩, _ | ⟨⟨⟩, e1⟩⟩⟩ := e
    obtain ⟨r1, s1, e2⟩ := e1.skip h1
    have hne := e2.ne (by lone) h2
    subst h3
    obtain ⟨u2, m1, rfl, e3, e4⟩ := e2.append
    obtain ⟨a', h7, h8⟩ := expr_rel (f := K.ofString) hK h4 _ e3.anywhere
    obtain ⟨r2, s2, e5⟩ := e4.skip_cons (by lone) h5
    obtain ⟨r3, s3, e6⟩ := e5.skip_cons (by lone) h6
    exact ⟨_, _, .arithmetic s1 hne rfl h7 s2 s3, e6, .subst (by simp only [Core.substOf, Option.map_some, h8])⟩
  | noArithmetic h5 h6 =>
    intro q2 ns2 l2 hp e
    obtain _ | ⟨⟨⟩, _ | ⟨⟨⟩, _ | ⟨⟨⟩, e1⟩⟩⟩ := e
    obtain ⟨r2, s2, e5⟩ := e1.skip_cons (by lone) h5
    obtain ⟨r3, s3, e6⟩ := e5.skip_cons (by lone) h6
    exact ⟨_, _, .noArithmetic s2 s3, e6, .same⟩
  | commandSubst h1 _ ih =>
    intro q2 ns2 l2 hp e
    obtain _ | ⟨⟨⟩, e1⟩ := e
    obtain ⟨a2, r2, k2, e3, j2⟩ := ih .Star [] _ trivial e1
    refine ⟨_, _, .commandSubst ?_ k2, e3, .subst ?_⟩
    · rintro l' rfl
      obtain _ | ⟨e4, _ | ⟨e5, e6⟩⟩ := e1
      have hl1 : Lone .ParenOpen := by lone
      obtain rfl := hl1.eq' e4
      obtain rfl := hl1.eq' e5
      exact h1 _ rfl
    · have j3 : GRel _ _ := j2
      simp only [Core.substOf, j3.1]
  | braced h1 _ ih =>
    intro q2 ns2 l2 hp e
    obtain _ | ⟨⟨⟩, _ | ⟨⟨⟩, _ | ⟨e1, e2⟩⟩⟩ := e
    obtain ⟨q', h2, h3⟩ := paramIn_alike hK h1 e1
    obtain ⟨a2, r2, k2, e3, j2⟩ := ih q' [] _ h3 e2
    exact ⟨_, _, .braced h2 k2, e3, j2⟩
  | curlyEnd =>
    intro q2 ns2 l2 hp e
    obtain _ | ⟨⟨⟩, e1⟩ := e
    exact ⟨_, _, .curlyEnd, e1, .param hp⟩
  | curlyColonEnd =>
    intro q2 ns2 l2 hp e
    obtain _ | ⟨⟨⟩, _ | ⟨⟨⟩, e1⟩⟩ := e
    exact ⟨_, _, .curlyColonEnd, e1, .param hp⟩
  | curlyLen h1 h2 =>
    intro q2 ns2 l2 hp e
    obtain rfl := (pound_iff hp).1 rfl
    obtain _ | ⟨e1, _ | ⟨⟨⟩, e2⟩⟩ := e
    obtain ⟨q', h3, h4⟩ := paramIn_alike hK h1 e1
    refine ⟨_, _, .curlyLen h3 (fun h => h2 ?_), e2, .subst (by simp only [Core.substOf, h4])⟩
    refine (lone_mem ?_ e1).2 h
    simp only [List.forall_mem_cons, List.not_mem_nil, false_implies, implies_true, and_true]
    refine ⟨?_, ?_, ?_, ?_, ?_, ?_, ?_, ?_⟩ <;> lone
  | curlyLenSpecial h1 =>
    intro q2 ns2 l2 hp e
    obtain rfl := (pound_iff hp).1 rfl
    obtain _ | ⟨e1, _ | ⟨⟨⟩, e2⟩⟩ := e
    have hl : ∀ p ∈ [(Token.Pound, (Parameter.Pound : DefaultParameter)), (.Question, .Question), (.Dash, .Dash)], Lone p.1 := by
      simp only [List.forall_mem_cons, List.not_mem_nil, false_implies, implies_true, and_true]
      refine ⟨?_, ?_, ?_⟩ <;> lone
    have := (hl _ h1).eq e1
    subst this
    exact ⟨_, _, .curlyLenSpecial h1, e2, .same⟩
  | curlyOp h1 _ h2 ih =>
    intro q2 ns2 l2 hp e
    obtain _ | ⟨e1, e2⟩ := e
    obtain ⟨a2, r2, k2, e3, j2⟩ := ih .Star [] _ trivial e2
    obtain rfl := (lone_substOps _ h1).eq e1
    have j3 : ORel (CRel K) _ _ := j2
    exact ⟨_, _, .curlyOp h1 k2 (fun ⟨g1, g2, g3⟩ => h2 ⟨(pound_iff hp).2 g1, g2, j3.none_iff.2 g3⟩), e3, .subst (substOps_eq hK h1 hp j3)⟩
  | curlyColonOp h1 _ ih =>
    intro q2 ns2 l2 hp e
    obtain _ | ⟨⟨⟩, _ | ⟨e1, e2⟩⟩ := e
    obtain ⟨a2, r2, k2, e3, j2⟩ := ih .Star [] _ trivial e2
    obtain rfl := (lone_substOps _ h1).eq e1
    have j3 : ORel (CRel K) _ _ := j2
    exact ⟨_, _, .curlyColonOp h1 k2, e3, .subst (substOps_eq hK h1 hp j3)⟩
  | curlyPercent h1 _ ih =>
    intro q2 ns2 l2 hp e
    obtain _ | ⟨⟨⟩, e2⟩ := e
    obtain ⟨a2, r2, k2, e3, j2⟩ := ih .Star [] _ trivial e2
    have j3 : ORel (CRel K) _ _ := j2
    have hp' : mapParam K.ofString _ = mapParam K.ofString _ := hp
    exact ⟨_, _, .curlyPercent (e2.ne (by lone) h1) k2, e3, .subst (by simp only [Core.substOf, hp', j3.word hK])⟩
  | curlyPercent2 _ ih =>
    intro q2 ns2 l2 hp e
    obtain _ | ⟨⟨⟩, _ | ⟨⟨⟩, e2⟩⟩ := e
    obtain ⟨a2, r2, k2, e3, j2⟩ := ih .Star [] _ trivial e2
    have j3 : ORel (CRel K) _ _ := j2
    have hp' : mapParam K.ofString _ = mapParam K.ofString _ := hp
    exact ⟨_, _, .curlyPercent2 k2, e3, .subst (by simp only [Core.substOf, hp', j3.word hK])⟩
  | curlyPound h1 _ h2 ih =>
    intro q2 ns2 l2 hp e
    obtain _ | ⟨⟨⟩, e2⟩ := e
    obtain ⟨a2, r2, k2, e3, j2⟩ := ih .Star [] _ trivial e2
    have j3 : ORel (CRel K) _ _ := j2
    have hp' : mapParam K.ofString _ = mapParam K.ofString _ := hp
    exact ⟨_, _, .curlyPound (e2.ne (by lone) h1) k2 (fun ⟨g1, g3⟩ => h2 ⟨(pound_iff hp).2 g1, j3.none_iff.2 g3⟩), e3, .subst (by simp only [Core.substOf, hp', j3.word hK])⟩
  | curlyPound2 _ ih =>
    intro q2 ns2 l2 hp e
    obtain _ | ⟨⟨⟩, _ | ⟨⟨⟩, e2⟩⟩ := e
    obtain ⟨a2, r2, k2, e3, j2⟩ := ih .Star [] _ trivial e2
    have j3 : ORel (CRel K) _ _ := j2
    have hp' : mapParam K.ofString _ = mapParam K.ofString _ := hp
    exact ⟨_, _, .curlyPound2 k2, e3, .subst (by simp only [Core.substOf, hp', j3.word hK])⟩
  | substEnd =>
    intro q2 ns2 l2 hp e
    obtain _ | ⟨⟨⟩, e2⟩ := e
    exact ⟨_, _, .substEnd, e2, .nil⟩
  | substDelim h1 _ ih =>
    intro q2 ns2 l2 hp e
    obtain _ | ⟨e1, e2⟩ := e
    obtain ⟨a2, r2, k2, e3, j2⟩ := ih .Star [] _ trivial e2
    exact ⟨_, _, .substDelim (by rw [← e1.delimiter]; exact h1) k2, e3, .cons (.simple (.lit e1.txt)) j2⟩
  | substPound _ ih =>
    intro q2 ns2 l2 hp e
    obtain _ | ⟨⟨⟩, e2⟩ := e
    obtain ⟨a2, r2, k2, e3, j2⟩ := ih .Star [] _ trivial e2
    exact ⟨_, _, .substPound k2, e3, .cons (.simple .same) j2⟩
  | substEscaped _ ih =>
    intro q2 ns2 l2 hp e
    obtain _ | ⟨⟨⟩, _ | ⟨⟨⟩, e2⟩⟩ := e
    obtain ⟨a2, r2, k2, e3, j2⟩ := ih .Star [] _ trivial e2
    exact ⟨_, _, .substEscaped k2, e3, .cons (.simple .same) j2⟩
  | substDropped _ ih =>
    intro q2 ns2 l2 hp e
    obtain _ | ⟨⟨⟩, _ | ⟨⟨⟩, e2⟩⟩ := e
    obtain ⟨a2, r2, k2, e3, j2⟩ := ih .Star [] _ trivial e2
    exact ⟨_, _, .substDropped k2, e3, j2⟩
  | substPiece h1 h2 _ _ ih1 ih2 =>
    intro q2 ns2 l2 hp e
    obtain ⟨a1, r1, k1, e1, j1⟩ := ih1 .Star [] _ trivial e
    obtain ⟨a2, r2, k2, e2, j2⟩ := ih2 .Star [] _ trivial e1
    exact ⟨_, _, .substPiece (e.ne (by lone) h1) (fun h => e.ne (by lone) (h2 h)) k1 k2, e2, .cons j1 j2⟩
  | substWord _ ih =>
    intro q2 ns2 l2 hp e
    obtain ⟨a2, r2, k2, e3, j2⟩ := ih .Star [] _ trivial e
    exact ⟨_, _, .substWord k2, e3, wordOf_rel j2⟩
  | backtick h1 _ ih =>
    intro q2 ns2 l2 hp e
    obtain ⟨x1, x2, rfl, e1, e2⟩ := e.append
    obtain _ | ⟨⟨⟩, e3⟩ := e1
    obtain _ | ⟨⟨⟩, e4⟩ := e2
    obtain ⟨a2, r2, k2, e5, j2⟩ := ih .Star [] _ plain_none e3.unescape
    cases e5
    have j3 : GRel _ _ := j2
    exact ⟨_, _, .backtick (Al.body (by lone) h1 e3) k2, e4, .cmd j3.1⟩
  | subshell _ h1 ih =>
    intro q2 ns2 l2 hp e
    obtain _ | ⟨⟨⟩, e3⟩ := e
    obtain ⟨a2, r2, k2, e5, j2⟩ := ih .Star [] _ plain_paren e3
    obtain _ | ⟨⟨⟩, e6⟩ := e5
    have j3 : GRel _ _ := j2
    exact ⟨_, _, .subshell k2 (fun h => h1 (by rw [j3.1]; exact h)), e6, j2⟩
  | groupEnd h1 h2 =>
    intro q2 ns2 l2 hp e
    obtain ⟨ns, r1, h3, h4, e1⟩ := e.lines h1
    exact ⟨_, _, .groupEnd h3 (h2.imp (e1.atDelim hp) e1.nil_iff.1), e1, rfl, h4.symm⟩
  | groupCons h1 h2 h3 _ _ ih1 ih2 =>
    intro q2 ns2 l2 hp e
    obtain ⟨ns, r1, h4, h5, e1⟩ := e.lines h1
    obtain ⟨c2, r2, k2, e2, j2⟩ := ih1 .Star ns _ trivial e1
    obtain rfl : _ = _ := j2
    obtain ⟨⟨cs2, ms2⟩, r3, k3, e3, j3, j4⟩ := ih2 .Star [] _ hp e2
    simp only at j3 j4
    subst j3
    exact ⟨_, _, .groupCons h4 (fun h => h2 (e1.symm.atDelim hp h)) (fun h => h3 (e1.nil_iff.2 h)) k2 k3, e3, rfl, j4⟩
  | brace h1 h2 _ h3 h4 h5 ih =>
    intro q2 ns2 l2 hp e
    obtain ⟨r1, s1, e1⟩ := e.skip_cons (by lone) h1
    obtain ⟨a2, r2, k2, e2, j2⟩ := ih .Star [] _ plain_brace e1
    obtain ⟨r3, s3, e3⟩ := e2.skip_cons (by lone) h4
    exact ⟨_, _, .brace s1 (e1.endsWord h2) k2 (GRel.ne j2 h3) s3 (e3.endsWord h5), e3, j2⟩
  | doGroup h1 _ h2 h3 ih =>
    intro q2 ns2 l2 hp e
    obtain ⟨r1, s1, e1⟩ := e.kw (by decide) h1
    obtain ⟨a2, r2, k2, e2, j2⟩ := ih .Star [] _ (plain_words (by decide)) e1
    obtain ⟨r3, s3, e3⟩ := e2.kw (by decide) h3
    exact ⟨_, _, .doGroup s1 k2 (GRel.ne j2 h2) s3, e3, j2⟩
  | redirPath h1 h2 _ h3 h4 ih =>
    intro q2 ns2 l2 hp e
    obtain _ | ⟨e0, e1⟩ := e
    obtain rfl := (lone_pathOps _ h1).eq e0
    obtain ⟨r1, s1, e2⟩ := e1.skip h2
    obtain ⟨a2, r2, k2, e3, j2⟩ := ih .Star [] _ pre_none e2
    cases j2 with
    | some j2 => exact ⟨_, _, .redirPath h1 s1 k2 (alike_word hK j2 h3) h4, e3, rfl⟩
  | redirDupDash h1 h2 h3 h4 h5 =>
    intro q2 ns2 l2 hp e
    obtain _ | ⟨e0, e1⟩ := e
    obtain rfl := (lone_dupOps _ h1).eq e0
    obtain ⟨r1, s1, e2⟩ := e1.skip_cons (by lone) h2
    exact ⟨_, _, .redirDupDash h1 s1 (e2.endsWord h3) h4 h5, e2, rfl⟩
  | redirDup h1 h2 h3 _ h4 h5 h6 ih =>
    intro q2 ns2 l2 hp e
    obtain _ | ⟨e0, e1⟩ := e
    obtain rfl := (lone_dupOps _ h1).eq e0
    obtain ⟨r1, s1, e2⟩ := e1.skip h2
    obtain ⟨a2, r2, k2, e3, j2⟩ := ih .Star [] _ pre_none e2
    have hd : ∀ r, r1 = .Dash :: r → ¬ Gram.EndsWord r := by
      rintro r rfl h
      obtain _ | ⟨e4, e5⟩ := e2
      have hl : Lone .Dash := by lone
      obtain rfl := hl.eq' e4
      exact h3 _ rfl (e5.symm.endsWord h)
    cases j2 with
    | some j2 => exact ⟨_, _, .redirDup h1 s1 hd k2 (j2.numeric h4) (alike_word hK j2 h5) h6, e3, rfl⟩
  | redirHeredoc _ ih =>
    intro q2 ns2 l2 hp e
    obtain ⟨a2, r2, k2, e3, j2⟩ := ih .Star [] _ trivial e
    exact ⟨_, _, .redirHeredoc k2, e3, j2⟩
  | heredocQuoted h1 =>
    intro q2 ns2 l2 hp e
    exfalso
    rcases h1 with rfl | rfl
    · obtain _ | ⟨⟨g1, g2⟩, _⟩ := e; exact g1 rfl
    · obtain _ | ⟨⟨g1, g2⟩, _⟩ := e; exact g2 rfl
  | heredoc h1 =>
    intro q2 ns2 l2 hp e
    exfalso
    rcases h1 with rfl | rfl
    · obtain _ | ⟨⟨g1, g2⟩, _⟩ := e; exact g1 rfl
    · obtain _ | ⟨⟨g1, g2⟩, _⟩ := e; exact g2 rfl
  | redirect _ h1 _ ih1 ih2 =>
    intro q2 ns2 l2 hp e
    obtain ⟨a2, r2, k2, e2, j2⟩ := ih1 .Star [] _ pre_none e
    cases j2
    obtain ⟨a3, r3, k3, e3, j3⟩ := ih2 .Star [] _ trivial e2
    obtain rfl : _ = _ := j3
    cases e2 with
    | cons e4 e5 =>
      have := (lone_redirOps _ h1).eq e4
      subst this
      exact ⟨_, _, .redirect k2 h1 k3, e3, rfl⟩
  | redirectFd _ h0 h1 _ ih1 ih2 =>
    intro q2 ns2 l2 hp e
    obtain ⟨a2, r2, k2, e2, j2⟩ := ih1 .Star [] _ pre_none e
    obtain ⟨a3, r3, k3, e3, j3⟩ := ih2 .Star [] _ trivial e2
    obtain rfl : _ = _ := j3
    cases j2 with
    | some j2 =>
      cases e2 with
      | cons e4 e5 =>
        have := (lone_redirOps _ h1).eq e4
        subst this
        exact ⟨_, _, .redirectFd k2 (j2.fd h0) h1 k3, e3, rfl⟩
  | redirectWord _ h1 h2 ih =>
    intro q2 ns2 l2 hp e
    obtain ⟨a2, r2, k2, e2, j2⟩ := ih .Star [] _ pre_none e
    cases j2 with
    | some j2 =>
      refine ⟨_, _, .redirectWord k2 ?_ (alike_word hK j2 h2), e2, rfl⟩
      rintro ⟨n, hn⟩ t r' rfl
      cases e2 with
      | cons e4 e5 => exact fun h => h1 ⟨n, j2.symm.fd hn⟩ _ _ rfl ((lone_mem lone_redirOps e4).2 h)
  | noRedirect _ h1 ih =>
    intro q2 ns2 l2 hp e
    obtain ⟨a2, r2, k2, e2, j2⟩ := ih .Star [] _ pre_none e
    cases j2
    refine ⟨_, _, .noRedirect k2 ?_, e2, rfl⟩
    rintro t r' rfl
    cases e2 with
    | cons e4 e5 => exact fun h => h1 _ _ rfl ((lone_mem lone_redirOps e4).2 h)
  | redirectsNil h1 _ ih =>
    intro q2 ns2 l2 hp e
    obtain ⟨r1, s1, e1⟩ := e.skip h1
    obtain ⟨a2, r2, k2, e2, j2⟩ := ih .Star [] _ trivial e1
    obtain rfl : _ = _ := j2
    exact ⟨_, _, .redirectsNil s1 k2, e2, rfl⟩
  | redirectsCons h1 _ _ ih1 ih2 =>
    intro q2 ns2 l2 hp e
    obtain ⟨r1, s1, e1⟩ := e.skip h1
    obtain ⟨a2, r2, k2, e2, j2⟩ := ih1 .Star [] _ trivial e1
    obtain rfl : _ = _ := j2
    obtain ⟨a3, r3, k3, e3, j3⟩ := ih2 .Star [] _ trivial e2
    obtain rfl : _ = _ := j3
    exact ⟨_, _, .redirectsCons s1 k2 k3, e3, rfl⟩
  | assignEmpty h1 _ ih =>
    intro q2 ns2 l2 hp e
    obtain ⟨y, r1, s1, e1⟩ := e.skip_name h1
    obtain _ | ⟨⟨⟩, e2⟩ := e1
    obtain ⟨⟨as2, x2⟩, r2, k2, e3, j2, j3⟩ := ih .Star [] _ trivial e2
    obtain rfl : _ = _ := j3
    obtain _ | ⟨e4, e5⟩ := e2
    obtain ⟨w, rfl⟩ := e4.is_ws
    refine ⟨_, _, .assignEmpty s1 k2, e3, ?_, rfl⟩
    simp only [List.map_cons, Core.mapEnvVar, hK _ y]
    exact congrArg _ j2
  | assign h1 h2 _ _ ih1 ih2 =>
    intro q2 ns2 l2 hp e
    obtain ⟨y, r1, s1, e1⟩ := e.skip_name h1
    obtain _ | ⟨⟨⟩, e2⟩ := e1
    obtain ⟨a1, r3, k1, e4, j1⟩ := ih1 .Star [] _ trivial e2
    obtain rfl : _ = _ := j1
    obtain ⟨⟨as2, x2⟩, r2, k2, e3, j2, j3⟩ := ih2 .Star [] _ trivial e4
    obtain rfl : _ = _ := j3
    refine ⟨_, _, .assign s1 ?_ k1 k2, e3, ?_, rfl⟩
    · rintro w m rfl
      obtain _ | ⟨e5, e6⟩ := e2
      obtain ⟨w', rfl⟩ := e5.symm.is_ws
      exact h2 _ _ rfl
    · simp only [List.map_cons, Core.mapEnvVar, hK _ y]
      exact congrArg _ j2
  | assignsRedirect h1 h2 _ _ ih1 ih2 =>
    intro q2 ns2 l2 hp e
    obtain ⟨r1, s1, e1⟩ := e.skip h1
    obtain ⟨a1, r3, k1, e4, j1⟩ := ih1 .Star [] _ trivial e1
    obtain rfl : _ = _ := j1
    obtain ⟨⟨as2, x2⟩, r2, k2, e3, j2, j3⟩ := ih2 .Star [] _ trivial e4
    obtain rfl : _ = _ := j3
    refine ⟨_, _, .assignsRedirect s1 (e1.assignStart h2) k1 k2, e3, ?_, rfl⟩
    simp only [List.map_cons]
    exact congrArg _ j2
  | assignsWord h1 h2 _ ih1 =>
    intro q2 ns2 l2 hp e
    obtain ⟨r1, s1, e1⟩ := e.skip h1
    obtain ⟨a1, r3, k1, e4, j1⟩ := ih1 .Star [] _ trivial e1
    obtain rfl : _ = _ := j1
    exact ⟨_, _, .assignsWord s1 (e1.assignStart h2) k1, e4, rfl, rfl⟩
  | assignsEnd h1 h2 _ ih1 =>
    intro q2 ns2 l2 hp e
    obtain ⟨r1, s1, e1⟩ := e.skip h1
    obtain ⟨a1, r3, k1, e4, j1⟩ := ih1 .Star [] _ trivial e1
    obtain rfl : _ = _ := j1
    exact ⟨_, _, .assignsEnd s1 (e1.assignStart h2) k1, e4, rfl, rfl⟩
  | argsRedirect _ _ ih1 ih2 =>
    intro q2 ns2 l2 hp e
    obtain ⟨a1, r1, k1, e1, j1⟩ := ih1 .Star [] _ trivial e
    obtain rfl : _ = _ := j1
    obtain ⟨a2, r2, k2, e2, j2⟩ := ih2 .Star [] _ trivial e1
    obtain rfl : _ = _ := j2
    exact ⟨_, _, .argsRedirect k1 k2, e2, rfl⟩
  | argsWord _ _ ih1 ih2 =>
    intro q2 ns2 l2 hp e
    obtain ⟨a1, r1, k1, e1, j1⟩ := ih1 .Star [] _ trivial e
    obtain rfl : _ = _ := j1
    obtain ⟨a2, r2, k2, e2, j2⟩ := ih2 .Star [] _ trivial e1
    obtain rfl : _ = _ := j2
    exact ⟨_, _, .argsWord k1 k2, e2, rfl⟩
  | argsEnd _ ih1 =>
    intro q2 ns2 l2 hp e
    obtain ⟨a1, r1, k1, e1, j1⟩ := ih1 .Star [] _ trivial e
    obtain rfl : _ = _ := j1
    exact ⟨_, _, .argsEnd k1, e1, rfl⟩
  | simple _ _ h1 h2 ih1 ih2 =>
    intro q2 ns2 l2 hp e
    obtain ⟨⟨vs2, x2⟩, r1, k1, e1, j1, j3⟩ := ih1 .Star [] _ trivial e
    obtain rfl : _ = _ := j3
    obtain ⟨a2, r2, k2, e2, j2⟩ := ih2 .Star [] _ trivial e1
    obtain rfl : _ = _ := j2
    refine ⟨_, _, .simple k1 k2 (h1.imp_left fun h g => h ?_) (alike_simple j1 h2), e2, rfl⟩
    have := congrArg List.length j1
    simp only at g
    subst g
    simpa using this
  | ifElif _ h1 h2 _ h3 h4 _ ih1 ih2 ih3 =>
    intro q2 ns2 l2 hp e
    obtain ⟨a1, r1, k1, e1, j1⟩ := ih1 .Star [] _ (plain_words (by decide)) e
    obtain ⟨r2, s2, e2⟩ := e1.kw (by decide) h2
    obtain ⟨a3, r3, k3, e3, j3⟩ := ih2 .Star [] _ (plain_words (by decide)) e2
    obtain ⟨r4, s4, e4⟩ := e3.kw (by decide) h4
    obtain ⟨⟨a5, a6⟩, r5, k5, e5, j5⟩ := ih3 .Star [] _ trivial e4
    refine ⟨_, _, .ifElif k1 (GRel.ne j1 h1) s2 k3 (GRel.ne j3 h3) s4 k5, e5, ?_⟩
    exact ifOf_cons j1 j3 j5
  | ifElse _ h1 h2 _ h3 h4 _ h5 h6 ih1 ih2 ih3 =>
    intro q2 ns2 l2 hp e
    obtain ⟨a1, r1, k1, e1, j1⟩ := ih1 .Star [] _ (plain_words (by decide)) e
    obtain ⟨r2, s2, e2⟩ := e1.kw (by decide) h2
    obtain ⟨a3, r3, k3, e3, j3⟩ := ih2 .Star [] _ (plain_words (by decide)) e2
    obtain ⟨r4, s4, e4⟩ := e3.kw (by decide) h4
    obtain ⟨a5, r5, k5, e5, j5⟩ := ih3 .Star [] _ (plain_words (by decide)) e4
    obtain ⟨r6, s6, e6⟩ := e5.kw (by decide) h6
    refine ⟨_, _, .ifElse k1 (GRel.ne j1 h1) s2 k3 (GRel.ne j3 h3) s4 k5 (GRel.ne j5 h5) s6, e6, ?_⟩
    exact ifOf_cons j1 j3 (ifOf_nil j5)
  | ifFi _ h1 h2 _ h3 h4 ih1 ih2 =>
    intro q2 ns2 l2 hp e
    obtain ⟨a1, r1, k1, e1, j1⟩ := ih1 .Star [] _ (plain_words (by decide)) e
    obtain ⟨r2, s2, e2⟩ := e1.kw (by decide) h2
    obtain ⟨a3, r3, k3, e3, j3⟩ := ih2 .Star [] _ (plain_words (by decide)) e2
    obtain ⟨r4, s4, e4⟩ := e3.kw (by decide) h4
    refine ⟨_, _, .ifFi k1 (GRel.ne j1 h1) s2 k3 (GRel.ne j3 h3) s4, e4, ?_⟩
    exact ifOf_cons j1 j3 rfl
  | ifCommand h1 _ ih =>
    intro q2 ns2 l2 hp e
    obtain ⟨r2, s2, e2⟩ := e.kw (by decide) h1
    obtain ⟨a3, r3, k3, e3, j3⟩ := ih .Star [] _ trivial e2
    exact ⟨_, _, .ifCommand s2 k3, e3, j3⟩
  | loopCommand h1 _ h2 _ ih1 ih2 =>
    intro q2 ns2 l2 hp e
    obtain ⟨r2, s2, e2⟩ := e.kw (loopWord_mem _) h1
    obtain ⟨a3, r3, k3, e3, j3⟩ := ih1 .Star [] _ (plain_words (by decide)) e2
    obtain ⟨a4, r4, k4, e4, j4⟩ := ih2 .Star [] _ trivial e3
    have j3 : GRel _ _ := j3
    have j4 : GRel _ _ := j4
    exact ⟨_, _, .loopCommand s2 k3 (GRel.ne j3 h2) k4, e4, rfl, j3.1, j4.1⟩
  | forIn h1 _ h2 h3 h4 ih =>
    intro q2 ns2 l2 hp e
    obtain ⟨r2, s2, e2⟩ := e.kw (by decide) h1
    obtain ⟨a3, r3, k3, e3, j3⟩ := ih .Star [] _ trivial e2
    obtain rfl : _ = _ := j3
    rcases h2 with rfl | ⟨rfl, h5, h6⟩
    · obtain _ | ⟨⟨⟩, e4⟩ := e3
      obtain ⟨c', r5, s5, h7, e5⟩ := e4.optLine h3
      obtain ⟨n6, r6, s6, h8, e6⟩ := e5.lines h4
      exact ⟨_, _, .forIn s2 k3 (.inl rfl) s5 s6, e6, rfl⟩
    · obtain ⟨c', r5, s5, h7, e5⟩ := e3.optLine h3
      obtain ⟨n6, r6, s6, h8, e6⟩ := e5.lines h4
      exact ⟨_, _, .forIn s2 k3 (.inr ⟨rfl, e3.ne (by lone) h5, by rw [h7]; exact h6⟩) s5 s6, e6, rfl⟩
  | forSemi h1 h2 =>
    intro q2 ns2 l2 hp e
    obtain ⟨r2, s2, e2⟩ := e.skip_cons (by lone) h1
    obtain ⟨n6, r6, s6, h8, e6⟩ := e2.lines h2
    exact ⟨_, _, .forSemi s2 s6, e6, rfl⟩
  | forDo h1 h2 =>
    intro q2 ns2 l2 hp e
    obtain ⟨r2, s2, e2⟩ := e.skip h1
    obtain ⟨r6, s6, e6⟩ := e2.keyword (by decide) h2
    exact ⟨_, _, .forDo s2 s6, e2, rfl⟩
  | forCommand h1 h2 h3 h4 _ _ ih1 ih2 =>
    intro q2 ns2 l2 hp e
    obtain ⟨r2, s2, e2⟩ := e.kw (by decide) h1
    obtain ⟨y, r3, s3, e3⟩ := e2.skip_name h2
    obtain ⟨c', r5, s5, h7, e5⟩ := e3.optLine h3
    obtain ⟨n6, r6, s6, h8, e6⟩ := e5.lines h4
    obtain ⟨⟨a7, a8⟩, r7, k7, e7, j7⟩ := ih1 .Star n6 _ trivial e6
    obtain ⟨a9, r9, k9, e9, j9⟩ := ih2 .Star [] _ trivial e7
    have j9 : GRel _ _ := j9
    exact ⟨_, _, .forCommand s2 s3 s5 s6 k7 k9, e9, j7, j9.1⟩
  | patternLast _ ih =>
    intro q2 ns2 l2 hp e
    obtain ⟨a3, r3, k3, e3, j3⟩ := ih .Star [] _ trivial e
    obtain rfl : _ = _ := j3
    obtain _ | ⟨⟨⟩, e4⟩ := e3
    exact ⟨_, _, .patternLast k3, e4, rfl⟩
  | patternCons _ _ ih1 ih2 =>
    intro q2 ns2 l2 hp e
    obtain ⟨a3, r3, k3, e3, j3⟩ := ih1 .Star [] _ trivial e
    obtain rfl : _ = _ := j3
    obtain _ | ⟨⟨⟩, e4⟩ := e3
    obtain ⟨a5, r5, k5, e5, j5⟩ := ih2 .Star [] _ trivial e4
    obtain rfl : _ = _ := j5
    exact ⟨_, _, .patternCons k3 k5, e5, rfl⟩
  | armsEnd h1 h2 =>
    intro q2 ns2 l2 hp e
    obtain ⟨n6, r6, s6, h8, e6⟩ := e.lines h1
    obtain ⟨r7, s7, e7⟩ := e6.keyword (by decide) h2
    exact ⟨_, _, .armsEnd s6 s7, e6, rfl⟩
  | armsCons h1 h2 h3 _ h4 _ h5 _ ih1 ih2 ih3 =>
    intro q2 ns2 l2 hp e
    obtain ⟨n1, r1, s1, h7, e1⟩ := e.lines h1
    obtain ⟨r2, s2, e2⟩ := e1.opt (by lone) h3
    obtain ⟨a3, r3, k3, e3, j3⟩ := ih1 .Star [] _ trivial e2
    obtain rfl : _ = _ := j3
    obtain ⟨c', r4, s4, h8, e4⟩ := e3.optLine h4
    obtain ⟨a5, r5, k5, e5, j5⟩ := ih2 .Star [] _ plain_arm e4
    obtain _ | ⟨⟨⟩, e6⟩ := e5
    obtain ⟨c7, r7, s7, h9, e7⟩ := e6.optLine h5
    obtain ⟨⟨a8, n8⟩, r8, k8, e8, j8⟩ := ih3 .Star [] _ trivial e7
    have j5 : GRel _ _ := j5
    have j8 : armsOf _ = armsOf _ := j8
    refine ⟨_, _, .armsCons s1 (e1.not_keyword (by decide) h2) s2 k3 s4 k5 s7 k8, e8, ?_⟩
    exact armsOf_cons j5 j8
  | armsLast h1 h2 h3 _ h4 _ h5 ih1 ih2 =>
    intro q2 ns2 l2 hp e
    obtain ⟨n1, r1, s1, h7, e1⟩ := e.lines h1
    obtain ⟨r2, s2, e2⟩ := e1.opt (by lone) h3
    obtain ⟨a3, r3, k3, e3, j3⟩ := ih1 .Star [] _ trivial e2
    obtain rfl : _ = _ := j3
    obtain ⟨c', r4, s4, h8, e4⟩ := e3.optLine h4
    obtain ⟨a5, r5, k5, e5, j5⟩ := ih2 .Star [] _ plain_arm e4
    have j5 : GRel _ _ := j5
    refine ⟨_, _, .armsLast s1 (e1.not_keyword (by decide) h2) s2 k3 s4 k5 (e5.ne (by lone) h5), e5, ?_⟩
    exact armsOf_cons j5 rfl
  | caseCommand h1 _ h2 h3 h4 _ h5 h6 ih1 ih2 =>
    intro q2 ns2 l2 hp e
    obtain ⟨r1, s1, e1⟩ := e.kw (by decide) h1
    obtain ⟨a3, r3, k3, e3, j3⟩ := ih1 .Star [] _ trivial e1
    obtain rfl : _ = _ := j3
    obtain ⟨n4, r4, s4, h7, e4⟩ := e3.lines h2
    obtain ⟨r5, s5, e5⟩ := e4.kw (by decide) h3
    obtain ⟨c', r6, s6, h8, e6⟩ := e5.optLine h4
    obtain ⟨⟨a7, n7⟩, r7, k7, e7, j7⟩ := ih2 .Star [] _ trivial e6
    obtain ⟨n8, r8, s8, h9, e8⟩ := e7.lines h5
    obtain ⟨r9, s9, e9⟩ := e8.kw (by decide) h6
    exact ⟨_, _, .caseCommand s1 k3 s4 s5 s6 k7 s8 s9, e9, rfl, j7⟩
  | compoundIf _ _ hc ih1 ih2 =>
    intro q2 ns2 l2 hp e
    obtain ⟨a1, r1, k1, e1, j1⟩ := ih1 .Star [] _ trivial e
    obtain ⟨a2, r2, k2, e2, j2⟩ := ih2 .Star [] _ trivial e1
    obtain rfl : _ = _ := j2
    exact ⟨_, _, .compoundIf k1 k2 (alike_if j1 hc), e2, rfl⟩
  | compoundLoop h1 _ _ hc ih1 ih2 =>
    intro q2 ns2 l2 hp e
    obtain ⟨⟨k, p⟩, r1, k1, e1, j1, j3, j4⟩ := ih1 .Star [] _ trivial e
    obtain rfl : _ = _ := j1
    obtain ⟨a2, r2, k2, e2, j2⟩ := ih2 .Star [] _ trivial e1
    obtain rfl : _ = _ := j2
    exact ⟨_, _, .compoundLoop h1 k1 k2 (alike_loop j3 j4 hc), e2, rfl⟩
  | compoundFor _ _ hc ih1 ih2 =>
    intro q2 ns2 l2 hp e
    obtain ⟨a1, r1, k1, e1, j1, j3⟩ := ih1 .Star [] _ trivial e
    obtain ⟨a2, r2, k2, e2, j2⟩ := ih2 .Star [] _ trivial e1
    obtain rfl : _ = _ := j2
    exact ⟨_, _, .compoundFor k1 k2 (alike_for hK j1 j3 hc), e2, rfl⟩
  | compoundCase _ _ hc ih1 ih2 =>
    intro q2 ns2 l2 hp e
    obtain ⟨a1, r1, k1, e1, j1, j3⟩ := ih1 .Star [] _ trivial e
    obtain ⟨a2, r2, k2, e2, j2⟩ := ih2 .Star [] _ trivial e1
    obtain rfl : _ = _ := j2
    exact ⟨_, _, .compoundCase k1 k2 (alike_case j1 j3 hc), e2, rfl⟩
  | compoundBrace _ _ hc ih1 ih2 =>
    intro q2 ns2 l2 hp e
    obtain ⟨a1, r1, k1, e1, j1⟩ := ih1 .Star [] _ trivial e
    obtain ⟨a2, r2, k2, e2, j2⟩ := ih2 .Star [] _ trivial e1
    obtain rfl : _ = _ := j2
    exact ⟨_, _, .compoundBrace k1 k2 (alike_brace j1 hc), e2, rfl⟩
  | compoundSubshell _ _ hc ih1 ih2 =>
    intro q2 ns2 l2 hp e
    obtain ⟨a1, r1, k1, e1, j1⟩ := ih1 .Star [] _ trivial e
    obtain ⟨a2, r2, k2, e2, j2⟩ := ih2 .Star [] _ trivial e1
    obtain rfl : _ = _ := j2
    exact ⟨_, _, .compoundSubshell k1 k2 (alike_subshell j1 hc), e2, rfl⟩
  | fnParens h1 =>
    intro q2 ns2 l2 hp e
    obtain ⟨r1, s1, e1⟩ := e.parens h1
    exact ⟨_, _, .fnParens s1, e1, rfl⟩
  | fnNewline =>
    intro q2 ns2 l2 hp e
    obtain _ | ⟨⟨⟩, e1⟩ := e
    exact ⟨_, _, .fnNewline, .cons (.same nofun nofun) e1, rfl⟩
  | fnWsParens h1 h2 =>
    intro q2 ns2 l2 hp e
    obtain _ | ⟨e0, e1⟩ := e
    obtain ⟨w, rfl⟩ := e0.is_ws
    obtain ⟨r1, s1, e1⟩ := e1.skip h1
    obtain ⟨r2, s2, e2⟩ := e1.parens h2
    exact ⟨_, _, .fnWsParens s1 s2, e2, rfl⟩
  | fnWs h1 h2 =>
    intro q2 ns2 l2 hp e
    obtain _ | ⟨e0, e1⟩ := e
    obtain ⟨w, rfl⟩ := e0.is_ws
    obtain ⟨r1, s1, e1⟩ := e1.skip h1
    exact ⟨_, _, .fnWs s1 (e1.ne (by lone) h2), e1, rfl⟩
  | fnEmpty h1 _ ih =>
    intro q2 ns2 l2 hp e
    obtain _ | ⟨e0, e1⟩ := e
    obtain ⟨w, rfl⟩ := e0.is_ws
    obtain ⟨r1, s1, e1⟩ := e1.skip h1
    obtain ⟨⟨a2, n2⟩, r2, k2, e2, j2, j3⟩ := ih .Star [] _ trivial e1
    obtain rfl : _ = _ := j2
    obtain rfl := List.length_eq_zero_iff.1 (Eq.symm j3)
    exact ⟨_, _, .fnEmpty s1 k2, e2, rfl⟩
  | fnSubshell h1 _ h2 hc ih =>
    intro q2 ns2 l2 hp e
    obtain _ | ⟨e0, e1⟩ := e
    obtain ⟨w, rfl⟩ := e0.is_ws
    obtain ⟨r1, s1, e1⟩ := e1.skip h1
    obtain ⟨a2, r2, k2, e2, j2⟩ := ih .Star [] _ trivial e1
    exact ⟨_, _, .fnSubshell s1 k2 (fun h => h2 (GRel.empty j2 h)) (alike_subshell j2 hc), e2, rfl⟩
  | function h1 h2 _ h3 h4 _ hc ih1 ih2 =>
    intro q2 ns2 l2 hp e
    obtain ⟨m1, g1, e1⟩ : ∃ m1, (_ ∧ Kw FUNCTION l2 m1 ∨ _ ∧ m1 = l2 ∧ ∀ r, ¬ Kw FUNCTION l2 r) ∧ Al _ m1 := by
      rcases h1 with ⟨g1, g2⟩ | ⟨g1, rfl, g2⟩
      · obtain ⟨m1, g3, e1⟩ := e.kw (by decide) g2
        exact ⟨m1, .inl ⟨g1, g3⟩, e1⟩
      · exact ⟨_, .inr ⟨g1, rfl, e.not_kw (by decide) g2⟩, e⟩
    obtain ⟨y, r2, s2, e2⟩ := e1.skip_name h2
    obtain ⟨a3, r3, k3, e3, j3⟩ := ih1 .Star [] _ trivial e2
    obtain rfl : _ = _ := j3
    obtain ⟨n4, r4, s4, h7, e4⟩ := e3.lines h3
    obtain ⟨a5, r5, k5, e5, j5⟩ := ih2 .Star [] _ trivial e4
    obtain rfl : _ = _ := j5
    exact ⟨_, _, .function g1 s2 k3 s4 (e4.compoundStart h4) k5 (alike_function hK hc), e5, rfl⟩
  | functionSubshell h1 h2 _ hc ih =>
    intro q2 ns2 l2 hp e
    obtain ⟨r1, s1, e1⟩ := e.kw (by decide) h1
    obtain ⟨y, r2, s2, e2⟩ := e1.skip_name h2
    obtain ⟨a3, r3, k3, e3, j3⟩ := ih .Star [] _ trivial e2
    obtain rfl : _ = _ := j3
    exact ⟨_, _, .functionSubshell s1 s2 k3 (alike_function hK hc), e3, rfl⟩
  | commandCompound h1 h2 _ hc ih =>
    intro q2 ns2 l2 hp e
    obtain ⟨r1, s1, e1⟩ := e.skip h1
    obtain ⟨a3, r3, k3, e3, j3⟩ := ih .Star [] _ trivial e1
    obtain rfl : _ = _ := j3
    exact ⟨_, _, .commandCompound s1 (e1.compoundStart h2) k3 hc, e3, rfl⟩
  | commandFunction h1 h2 h3 _ ih =>
    intro q2 ns2 l2 hp e
    obtain ⟨r1, s1, e1⟩ := e.skip h1
    obtain ⟨a3, r3, k3, e3, j3⟩ := ih .Star [] _ trivial e1
    exact ⟨_, _, .commandFunction s1 (e1.not_compoundStart h2) (e1.functionStart h3) k3, e3, j3⟩
  | commandSimple h1 h2 h3 _ ih =>
    intro q2 ns2 l2 hp e
    obtain ⟨r1, s1, e1⟩ := e.skip h1
    obtain ⟨a3, r3, k3, e3, j3⟩ := ih .Star [] _ trivial e1
    exact ⟨_, _, .commandSimple s1 (e1.not_compoundStart h2) (e1.not_functionStart h3) k3, e3, j3⟩
  | pipeLast h1 _ h2 ih =>
    intro q2 ns2 l2 hp e
    obtain ⟨a3, r3, k3, e3, j3⟩ := ih .Star [] _ trivial e
    obtain rfl : _ = _ := j3
    exact ⟨_, _, .pipeLast (e.ne (by lone) h1) k3 (e3.ne (by lone) h2), e3, rfl⟩
  | pipeCons h1 _ h2 _ ih1 ih2 =>
    intro q2 ns2 l2 hp e
    obtain ⟨a3, r3, k3, e3, j3⟩ := ih1 .Star [] _ trivial e
    obtain rfl : _ = _ := j3
    obtain _ | ⟨⟨⟩, e4⟩ := e3
    obtain ⟨n5, r5, s5, h7, e5⟩ := e4.lines h2
    obtain ⟨a6, r6, k6, e6, j6⟩ := ih2 .Star [] _ trivial e5
    refine ⟨_, _, .pipeCons (e.ne (by lone) h1) k3 s5 k6, e6, ?_⟩
    exact congrArg (List.cons _) j6
  | pipeline h1 h2 _ hc ih =>
    intro q2 ns2 l2 hp e
    obtain ⟨r1, s1, e1⟩ := e.skip h1
    have hl : Lone .Bang := by lone
    rcases h2 with ⟨g1, g2⟩ | ⟨g1, g2, g3⟩
    · subst g2
      obtain _ | ⟨⟨⟩, e2⟩ := e1
      obtain ⟨a3, r3, k3, e3, j3⟩ := ih .Star [] _ trivial e2
      exact ⟨_, _, .pipeline s1 (.inl ⟨g1, rfl⟩) k3 (alike_pipeline j3 hc), e3, rfl⟩
    · subst g2
      obtain ⟨a3, r3, k3, e3, j3⟩ := ih .Star [] _ trivial e1
      exact ⟨_, _, .pipeline s1 (.inr ⟨g1, rfl, e1.ne hl g3⟩) k3 (alike_pipeline j3 hc), e3, rfl⟩
  | andOrEnd h1 h2 =>
    intro q2 ns2 l2 hp e
    obtain ⟨r1, s1, e1⟩ := e.skip h1
    exact ⟨_, _, .andOrEnd s1 (fun r => ⟨e1.ne (by lone) (fun r => (h2 r).1) r, e1.ne (by lone) (fun r => (h2 r).2) r⟩), e1, rfl⟩
  | andOrAnd h1 h2 _ _ ih1 ih2 =>
    intro q2 ns2 l2 hp e
    obtain ⟨r1, s1, e1⟩ := e.skip_cons (by lone) h1
    obtain ⟨n5, r5, s5, h7, e5⟩ := e1.lines h2
    obtain ⟨a3, r3, k3, e3, j3⟩ := ih1 .Star [] _ trivial e5
    obtain rfl : _ = _ := j3
    obtain ⟨a6, r6, k6, e6, j6⟩ := ih2 .Star [] _ trivial e3
    refine ⟨_, _, .andOrAnd s1 s5 k3 k6, e6, ?_⟩
    exact congrArg (List.cons _) j6
  | andOrOr h1 h2 _ _ ih1 ih2 =>
    intro q2 ns2 l2 hp e
    obtain ⟨r1, s1, e1⟩ := e.skip_cons (by lone) h1
    obtain ⟨n5, r5, s5, h7, e5⟩ := e1.lines h2
    obtain ⟨a3, r3, k3, e3, j3⟩ := ih1 .Star [] _ trivial e5
    obtain rfl : _ = _ := j3
    obtain ⟨a6, r6, k6, e6, j6⟩ := ih2 .Star [] _ trivial e3
    refine ⟨_, _, .andOrOr s1 s5 k3 k6, e6, ?_⟩
    exact congrArg (List.cons _) j6
  | andOr _ _ hc ih1 ih2 =>
    intro q2 ns2 l2 hp e
    obtain ⟨a3, r3, k3, e3, j3⟩ := ih1 .Star [] _ trivial e
    obtain rfl : _ = _ := j3
    obtain ⟨a6, r6, k6, e6, j6⟩ := ih2 .Star [] _ trivial e3
    exact ⟨_, _, .andOr k3 k6 (alike_andOr j6 hc), e6, rfl⟩
  | complete _ h1 hc ih =>
    intro q2 ns2 l2 hp e
    obtain ⟨a3, r3, k3, e3, j3⟩ := ih .Star [] _ trivial e
    obtain rfl : _ = _ := j3
    obtain ⟨c4, r4, s4, e4⟩ := e3.sepAfter h1
    exact ⟨_, _, .complete k3 s4 (alike_complete hc), e4, rfl⟩
  | topCommand h1 h2 _ ih =>
    intro q2 ns2 l2 hp e
    obtain ⟨n5, r5, s5, h7, e5⟩ := e.lines h1
    obtain ⟨a3, r3, k3, e3, j3⟩ := ih .Star n5 _ trivial e5
    obtain rfl : _ = _ := j3
    exact ⟨_, _, .topCommand s5 (fun h => h2 (e5.nil_iff.2 h)) k3, e3, rfl⟩
  | topNone h1 =>
    intro q2 ns2 l2 hp e
    obtain ⟨n5, r5, s5, h7, e5⟩ := e.lines h1
    cases e5
    obtain rfl := List.length_eq_zero_iff.1 h7
    exact ⟨_, _, .topNone s5, .nil, rfl⟩
  | topComments h1 h2 hc =>
    intro q2 ns2 l2 hp e
    obtain ⟨n5, r5, s5, h7, e5⟩ := e.lines h1
    cases e5
    refine ⟨_, _, .topComments s5 ?_ (alike_comments hc), .nil, rfl⟩
    rintro rfl
    exact h2 (List.length_eq_zero_iff.1 h7.symm)

end
end Conch
