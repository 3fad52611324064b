import Verif.OpJoin
import Verif.PropsComment
import Verif.PropsEmbed
import Verif.NormalTree
import Verif.LayoutGroup
/-!
# C62: `!`, `|`, `&&`, `||`, `;` and `&`: precedence and associativity
-/
namespace Conch
open Spec Gram

/-! ## Specification -/

/-- A text to which an operator can be attached: no blank before it or after it, no backslash at the end and no
here-document (whose body would have to follow the line). -/
structure Spec.Neat (cc : CharClass) (p : Str) : Prop where
  first : ∀ c, p.head? = some c → ¬ Blank cc c
  joined : ¬ ['\\', '\n'] <+: p
  last : ∀ c, p.getLast? = some c → c ≠ '\\' ∧ ¬ Blank cc c
  here : ¬ ['<', '<'] <:+: p

/-- The text is a command: `Parser::command` reads it to its end. -/
def Spec.IsCommand (cc : CharClass) (p : Str) (c : SPipeable) : Prop :=
  Neat cc p ∧ Parses (B := DefaultBuilder) .command (parserOn (lex cc p) ()) c [] ()

/-- The text is a pipeline: `Parser::pipeline` reads it to its end. -/
def Spec.IsPipeline (cc : CharClass) (p : Str) (x : ListableCommand SPipeable) : Prop :=
  Neat cc p ∧ Parses (B := DefaultBuilder) .pipeline (parserOn (lex cc p) ()) x [] ()

/-- The text is a list: `Parser::and_or_list` reads it to its end. -/
def Spec.IsList (cc : CharClass) (p : Str) (x : AndOrList (ListableCommand SPipeable)) : Prop :=
  Neat cc p ∧ Parses (B := DefaultBuilder) .andOrList (parserOn (lex cc p) ()) x [] ()

/-- A function whose body is a subshell without redirections. -/
def Spec.BareFn : SPipeable → Prop
  | .FunctionDef _ ⟨.Subshell _, []⟩ => True
  | _ => False

/-! ## Reading -/

section
variable {cc : CharClass} {p q : Str} {l r X : List Token}

theorem parses_iff {m : Method} (hm : m.InGrammar) {a : m.Ret DefaultBuilder.toBTypes} {r} :
    Parses (B := DefaultBuilder) m (parserOn l ()) a r () ↔ Derives m (B := DefaultBuilder) () l a r () := by
  rw [C31_parser_exact m hm, PSt.tokens, parserOn_rest]

theorem isCommand_iff {c : SPipeable} : IsCommand cc p c ↔ Neat cc p ∧ RD .command (lex cc p) c [] :=
  and_congr_right fun _ => parses_iff (m := .command) trivial

theorem isPipeline_iff {x : ListableCommand SPipeable} : IsPipeline cc p x ↔ Neat cc p ∧ RD .pipeline (lex cc p) x [] :=
  and_congr_right fun _ => parses_iff (m := .pipeline) trivial

theorem isList_iff {x : AndOrList (ListableCommand SPipeable)} : IsList cc p x ↔ Neat cc p ∧ RD .andOr (lex cc p) x [] :=
  and_congr_right fun _ => parses_iff (m := .andOrList) trivial

theorem Spec.Neat.plain (h : Neat cc p) : Gram.Plain none (lex cc p) :=
  lex_plain h.here fun e => (h.last _ e).1 rfl

theorem Spec.Neat.nb (h : Neat cc p) : NB cc p := by
  cases p with
  | nil => rw [NB, lex_nil]; simp [Gram.NoBlank]
  | cons c p =>
    have := h.first c rfl
    refine noBlank_text ?_ ?_
    · by_cases hn : c = '\n'
      · exact .inr hn
      · exact .inl (by cases hw : cc.whitespace c <;> simp [Blank, hw, hn] at this ⊢)
    · rintro rfl r' rfl
      exact h.joined ⟨r', rfl⟩

/-- A command leaves the blanks after it only if it is a function with a bare subshell. -/
theorem command_rest {b b' : DefaultBuilder.State} {c : SPipeable} (h : Reads (B := DefaultBuilder) .command b l c r b') (hb : ¬ BareFn c) : Gram.NoBlank r := by
  cases h with
  | commandCompound _ _ h => exact compound_noBlank h
  | commandFunction _ _ _ h =>
    cases h with
    | function _ _ _ _ _ h => exact compound_noBlank h
    | functionSubshell _ _ h1 h2 =>
      cases h1 with
      | fnSubshell _ _ _ h3 =>
        obtain rfl := calls_eq h3 rfl
        obtain rfl := calls_eq h2 rfl
        exact absurd trivial hb
  | commandSimple _ _ _ h =>
    cases h with
    | simple _ h => exact args_noBlank h

theorem command_before {c : SPipeable} {k : Token} (w : Str) (X : List Token) (hx : Gram.Plain none l) (hk : IsOp k)
    (h : RD .command l c []) (hb : ¬ BareFn c) : RD .command (l ++ .Whitespace w :: k :: X) c (k :: X) := by
  obtain ⟨-, r', h1, rfl | ⟨-, rfl⟩⟩ := op_extend (.inl rfl) w X hx hk (by simp [NT.oslack, NT.slack]) h
  · exact absurd rfl ((command_rest h1 hb).1 _ _)
  · exact h1

abbrev Cmds := List (List Nl × SPipeable)

theorem plain_cons {t : Token} (h : Gram.Plain none (t :: l)) : Gram.Plain none l := h.suffix (v := [t])

theorem pipe_join {ns : List Nl} {X' : List Token} {ds : Cmds} {w : Str} (hX : Gram.Lines X ns X')
    (hd : RD .pipelineCmds X' ds r) {cs : Cmds} :
    ∀ {b b' : DefaultBuilder.State} {l : List Token}, Gram.Plain none l → Reads (B := DefaultBuilder) .pipelineCmds b l cs [] b' → (∀ d ∈ cs.getLast?, ¬ BareFn d.2) →
      ∃ es : Cmds, RD .pipelineCmds (l ++ .Whitespace w :: .Pipe :: X) es r ∧ es.map (·.2) = cs.map (·.2) ++ ds.map (·.2) := by
  have hk : IsOp .Pipe := by simp [IsOp]
  have bang : ∀ {l Y : List Token}, l ≠ [] → (∀ l', l ≠ .Bang :: l') → ∀ l', l ++ Y ≠ .Bang :: l' := by
    rintro (_ | ⟨t, l⟩) Y h0 h l' e
    · exact h0 rfl
    · simp at e; exact h l (by rw [e.1])
  induction cs with
  | nil => intro _ _ l _ h; cases h
  | cons c cs ih =>
    intro b b' l hx h hl
    have hne := pipe_ne_nil (.inl rfl) h
    cases h with
    | pipeLast h1 h2 h3 =>
      have h4 := command_before w X hx hk h2 (hl _ rfl)
      exact ⟨_, .pipeCons (bang hne h1) h4 hX hd, by simp⟩
    | @pipeCons _ _ c l1 b1 ns2 l2 _ _ _ h1 h2 h3 h4 =>
      obtain ⟨hx1, r', h5, rfl | ⟨h6, -⟩⟩ := op_extend (.inl rfl) w X hx hk (by simp [NT.oslack, NT.slack]) h2
      · have hne2 := pipe_ne_nil (.inl rfl) h4
        have hx1 := plain_cons hx1
        obtain ⟨es, g1, g2⟩ := ih (Lines.plain h3 hx1) h4 (by
          cases cs with
          | nil => cases h4
          | cons => simpa using hl)
        exact ⟨_, .pipeCons (bang hne h1) h5 (lines_extend h3 hx1 hne2) g1, by simp [g2]⟩
      · cases h6

theorem rest_join {k : Token} (hk : k = .AndIf ∨ k = .OrIf) {ds : List (List Nl × AndOr (ListableCommand SPipeable))} {w : Str}
    (hd : RD .andOrRest (k :: X) ds r) {cs : List (List Nl × AndOr (ListableCommand SPipeable))} :
    ∀ {b b' : DefaultBuilder.State} {l : List Token}, Gram.Plain none l → Reads (B := DefaultBuilder) .andOrRest b l cs [] b' →
      RD .andOrRest (l ++ .Whitespace w :: k :: X) (cs ++ ds) r := by
  have hop : IsOp k := by rcases hk with rfl | rfl <;> simp [IsOp]
  have hnb : Gram.NoBlank (k :: X) := by rcases hk with rfl | rfl <;> simp [Gram.NoBlank]
  have step : ∀ {cs} {x : ListableCommand SPipeable} {b b1 b' : DefaultBuilder.State} {l1 ns l2 l3},
      (∀ {b b' : DefaultBuilder.State} {l : List Token}, Gram.Plain none l → Reads (B := DefaultBuilder) .andOrRest b l cs [] b' →
        RD .andOrRest (l ++ .Whitespace w :: k :: X) (cs ++ ds) r) → Gram.Plain none l1 → Gram.Lines l1 ns l2 →
      Reads (B := DefaultBuilder) .pipeline b l2 x l3 b1 → Reads (B := DefaultBuilder) .andOrRest b1 l3 cs [] b' →
      ∃ l4, Gram.Lines (l1 ++ .Whitespace w :: k :: X) ns (l2 ++ .Whitespace w :: k :: X) ∧
        RD .pipeline (l2 ++ .Whitespace w :: k :: X) x l4 ∧ RD .andOrRest l4 (cs ++ ds) r := by
    intro cs x b b1 b' l1 ns l2 l3 ih hx h1 h2 h3
    obtain ⟨hx3, l4, h4, h5⟩ := op_extend (.inr (.inr (.inl rfl))) w X (Lines.plain h1 hx) hop
      (by rcases hk with rfl | rfl <;> simp [NT.oslack]) h2
    refine ⟨l4, lines_extend h1 hx (pipe_ne_nil (.inr rfl) h2), h4, ?_⟩
    have h6 := ih hx3 h3
    rcases h5 with rfl | ⟨rfl, rfl⟩
    · exact h6
    · exact andOrRest_same ⟨k :: X, skip_blank (.refl hnb), .refl hnb⟩ h6
  induction cs with
  | nil =>
    intro b b' l hx h
    cases h with
    | andOrEnd h1 h2 =>
      obtain ⟨bs, rfl, h1, -⟩ := h1
      exact andOrRest_same ⟨k :: X, .refl hnb, by simpa using skip_append h1 (skip_blank (w := w) (.refl hnb))⟩ hd
  | cons c cs ih =>
    intro b b' l hx h
    cases h with
    | andOrAnd h1 h2 h3 h4 =>
      have hx1 := Skip.plain h1 hx
      obtain ⟨l4, g1, g2, g3⟩ := step ih (plain_cons hx1) h2 h3 h4
      exact .andOrAnd (skip_extend h1 hx (by simp)) g1 g2 g3
    | andOrOr h1 h2 h3 h4 =>
      have hx1 := Skip.plain h1 hx
      obtain ⟨l4, g1, g2, g3⟩ := step ih (plain_cons hx1) h2 h3 h4
      exact .andOrOr (skip_extend h1 hx (by simp)) g1 g2 g3

/-! ## Texts -/

/-- Blanks, at least one. -/
def Spec.SomeBlanks (cc : CharClass) (bl : Str) : Prop := bl ≠ [] ∧ ∀ c ∈ bl, Blank cc c

/-- Blanks, newlines and comments (with their newline), something at least; no `<`. -/
def Spec.SomeLayout (cc : CharClass) (g : Str) : Prop := g ≠ [] ∧ Layout cc g ∧ '<' ∉ g

theorem infix_cut {u v : Str} {c : Char} (hc : c ≠ '<') (h : ['<', '<'] <:+: u ++ c :: v) : ['<', '<'] <:+: u ∨ ['<', '<'] <:+: v := by
  obtain ⟨x, y, e⟩ := h
  rw [List.append_assoc] at e
  rcases List.append_eq_append_iff.1 e with ⟨z, rfl, h2⟩ | ⟨z, rfl, h2⟩
  · match z, h2 with
    | [], h2 => simp at h2; exact absurd h2.1.symm hc
    | [a], h2 => simp at h2; exact absurd h2.2.1.symm hc
    | a :: b :: z, h2 =>
      simp at h2
      obtain ⟨rfl, rfl, h2⟩ := h2
      exact .inl ⟨x, z, by simp⟩
  · cases z with
    | nil => simp at h2; exact absurd h2.1 hc
    | cons a z =>
      simp at h2
      exact .inr ⟨z, y, by rw [h2.2]; simp⟩

theorem neat_ne (hp : ∀ c, p.getLast? = some c → c ≠ '\\' ∧ ¬ Blank cc c) {X : Str} (h : ['\\', '\n'] <+: p ++ X) (hn : p ≠ []) :
    ['\\', '\n'] <+: p := by
  match p, hn with
  | [a], _ =>
    obtain ⟨z, e⟩ := h
    simp at e
    obtain ⟨rfl, -⟩ := e
    exact absurd rfl (hp _ rfl).1
  | a :: b :: p, _ =>
    obtain ⟨z, e⟩ := h
    simp at e
    obtain ⟨rfl, rfl, -⟩ := e
    exact ⟨p, rfl⟩

/-- Two texts with an operator between them. -/
theorem neat_join {op bl g : Str} (hp : Neat cc p) (hq : Neat cc q) (hp0 : p ≠ []) (hq0 : q ≠ []) (ho : op ≠ []) (hop : '<' ∉ op)
    (hs : cc.Sane) (hb : SomeBlanks cc bl) (hg : SomeLayout cc g) : Neat cc (p ++ (bl ++ (op ++ (g ++ q)))) := by
  refine ⟨?_, ?_, ?_, ?_⟩
  · intro c hc
    cases p with
    | nil => exact absurd rfl hp0
    | cons d p => exact hp.first c hc
  · intro h
    exact hp.joined (neat_ne hp.last h hp0)
  · intro c hc
    rw [← List.append_assoc, ← List.append_assoc, ← List.append_assoc, List.getLast?_append] at hc
    refine hq.last c ?_
    rcases List.eq_nil_or_concat q with rfl | ⟨q, d, rfl⟩
    · exact absurd rfl hq0
    · simpa using hc
  · have hbl : '<' ∉ bl := by
      intro h
      exact (blank_not_op hs (hb.2 _ h)).1 (delim_op (by decide))
    have cut : ∀ {u v : Str}, u ≠ [] → '<' ∉ u → ∀ x, ['<', '<'] <:+: x ++ (u ++ v) → ['<', '<'] <:+: x ∨ ['<', '<'] <:+: v := by
      intro u v hu hn x h
      induction u generalizing x with
      | nil => exact absurd rfl hu
      | cons c u ih =>
        simp at hn
        rcases infix_cut (fun e => hn.1 e.symm) h with h | h
        · exact .inl h
        · cases u with
          | nil => exact .inr h
          | cons d u =>
            rcases ih (by simp) (by simpa using hn.2) [] (by simpa using h) with h | h
            · simp at h
            · exact .inr h
    intro h
    rcases cut hb.1 hbl _ h with h | h
    · exact hp.here h
    · rcases cut ho hop [] (by simpa using h) with h | h
      · simp at h
      · rcases cut hg.1 hg.2.2 [] (by simpa using h) with h | h
        · simp at h
        · exact hq.here h

theorem isCommand_ne {c : SPipeable} (h : IsCommand cc p c) : p ≠ [] := by
  rintro rfl
  have := (isCommand_iff.1 h).2.command_lt
  simp [lex_nil] at this

theorem isPipeline_ne {x : ListableCommand SPipeable} (h : IsPipeline cc p x) : p ≠ [] := by
  rintro rfl
  have := (isPipeline_iff.1 h).2
  rw [lex_nil] at this
  exact pipe_ne_nil (.inr rfl) this rfl

theorem list_split {b b' : DefaultBuilder.State} {x : AndOrList (ListableCommand SPipeable)}
    (h : Reads (B := DefaultBuilder) .andOr b l x r b') : ∃ l1 cs, RD .pipeline l x.first l1 ∧ RD .andOrRest l1 cs r ∧ cs.map (·.2) = x.rest := by
  cases h with
  | andOr h1 h2 h3 =>
    obtain rfl := calls_eq h3 rfl
    exact ⟨_, _, h1, h2, rfl⟩

theorem isList_ne {x : AndOrList (ListableCommand SPipeable)} (h : IsList cc p x) : p ≠ [] := by
  rintro rfl
  obtain ⟨l1, cs, h1, -⟩ := list_split (isList_iff.1 h).2
  rw [lex_nil] at h1
  exact pipe_ne_nil (.inr rfl) h1 rfl

theorem list_make {x : ListableCommand SPipeable} {l1 : List Token} {cs : List (List Nl × AndOr (ListableCommand SPipeable))}
    (h1 : RD .pipeline l x l1) (h2 : RD .andOrRest l1 cs r) : RD .andOr l ⟨x, cs.map (·.2)⟩ r := .andOr h1 h2 rfl

theorem pipe_inj {m n : Bool} {cs ds : List SPipeable} (hd : ds ≠ []) (h : pipeAst m cs = pipeAst n ds) : m = n ∧ cs = ds := by
  match m, n, cs, ds, hd, h with
  | false, false, [], [_], _, h => cases h
  | false, true, [], [_], _, h => cases h
  | true, false, [], [_], _, h => cases h
  | true, true, [], [_], _, h => cases h
  | _, _, [], _ :: _ :: _, _, h => cases h
  | false, false, [_], [_], _, h => cases h; exact ⟨rfl, rfl⟩
  | true, true, [_], [_], _, h => cases h; exact ⟨rfl, rfl⟩
  | false, true, [_], [_], _, h => cases h
  | true, false, [_], [_], _, h => cases h
  | false, _, [_], _ :: _ :: _, _, h => cases h
  | true, _, [_], _ :: _ :: _, _, h => cases h
  | _, false, _ :: _ :: _, [_], _, h => cases h
  | _, true, _ :: _ :: _, [_], _, h => cases h
  | _, _, _ :: _ :: _, _ :: _ :: _, _, h => cases h; exact ⟨rfl, rfl⟩

theorem cmds_ne {b b' : DefaultBuilder.State} {cs : Cmds} (h : Reads (B := DefaultBuilder) .pipelineCmds b l cs r b') : cs.map (·.2) ≠ [] := by
  cases h <;> simp

/-- What a pipeline is read from. -/
theorem pipeline_split {n : Bool} {cs : List SPipeable} {b b' : DefaultBuilder.State} (hl : Gram.NoBlank l)
    (h : Reads (B := DefaultBuilder) .pipeline b l (pipeAst n cs) r b') :
    ∃ l2 es, (n = true ∧ l = .Bang :: l2 ∨ n = false ∧ l2 = l ∧ ∀ l', l ≠ .Bang :: l') ∧ RD .pipelineCmds l2 es r ∧ es.map (·.2) = cs ∧ cs ≠ [] := by
  generalize e : pipeAst n cs = x at h
  cases h with
  | @pipeline _ _ l1 bang l2 es _ _ _ _ h1 h2 h3 h4 =>
    obtain rfl := h1.eq hl
    have hne := cmds_ne h3
    have h5 := pipe_call bang hne
    have h6 := Eq.trans (Eq.symm h5) h4
    injection h6 with h6
    injection h6 with h6
    rw [← h6] at e
    obtain ⟨rfl, rfl⟩ := pipe_inj hne e
    exact ⟨l2, es, h2, h3, rfl, hne⟩

theorem pipeline_make {n : Bool} {l2 : List Token} {es : Cmds} (hl : Gram.NoBlank l)
    (h : n = true ∧ l = .Bang :: l2 ∨ n = false ∧ l2 = l ∧ ∀ l', l ≠ .Bang :: l') (h2 : RD .pipelineCmds l2 es r) :
    RD .pipeline l (pipeAst n (es.map (·.2))) r := .pipeline (.refl hl) h h2 (pipe_call n (cmds_ne h2))

theorem command_same {b b' : DefaultBuilder.State} {l' : List Token} {c : SPipeable} (h : Skip l' l) (hr : Reads (B := DefaultBuilder) .command b l c r b') :
    Reads (B := DefaultBuilder) .command b l' c r b' := by
  have hl := h.noBlank
  cases hr with
  | commandCompound h1 h2 h3 h4 => obtain rfl := h1.eq hl; exact .commandCompound h h2 h3 h4
  | commandFunction h1 h2 h3 h4 => obtain rfl := h1.eq hl; exact .commandFunction h h2 h3 h4
  | commandSimple h1 h2 h3 h4 => obtain rfl := h1.eq hl; exact .commandSimple h h2 h3 h4

theorem cmds_same {b b' : DefaultBuilder.State} {l' : List Token} {c : Cmds} (h : Skip l' l) (hb : ∀ q, l' ≠ .Bang :: q) (hr : Reads (B := DefaultBuilder) .pipelineCmds b l c r b') :
    Reads (B := DefaultBuilder) .pipelineCmds b l' c r b' := by
  cases hr with
  | pipeLast h1 h2 h3 => exact .pipeLast hb (command_same h h2) h3
  | pipeCons h1 h2 h3 h4 => exact .pipeCons hb (command_same h h2) h3 h4

section
variable (hs : cc.Sane)
include hs

theorem lex_join {bl y : Str} {d : Char} (hp : Neat cc p) (hb : SomeBlanks cc bl) (hd : opStart d) :
    lex cc (p ++ (bl ++ d :: y)) = lex cc p ++ .Whitespace bl :: lex cc (d :: y) :=
  lex_blanks hs p bl d y hp.last hb.1 hb.2 fun h => (blank_not_op hs h).1 hd

/-- Putting a list after another one. -/
theorem list_and_or {k : Token} {d : Char} {bl g : Str} (hk : k = .AndIf ∧ d = '&' ∨ k = .OrIf ∧ d = '|') {L M : AndOrList (ListableCommand SPipeable)}
    (hp : IsList cc p L) (hq : IsList cc q M) (hb : SomeBlanks cc bl) (hg : SomeLayout cc g) :
    IsList cc (p ++ (bl ++ ([d, d] ++ (g ++ q)))) ⟨L.first, L.rest ++ (if k = .AndIf then .And M.first else .Or M.first) :: M.rest⟩ := by
  have hd : opStart d := by rcases hk with ⟨-, rfl⟩ | ⟨-, rfl⟩ <;> exact delim_op (by decide)
  refine isList_iff.2 ⟨neat_join hp.1 hq.1 (isList_ne hp) (isList_ne hq) (by simp) ?_ hs hb hg, ?_⟩
  · rcases hk with ⟨-, rfl⟩ | ⟨-, rfl⟩ <;> decide
  have e : lex cc (p ++ (bl ++ ([d, d] ++ (g ++ q)))) = lex cc p ++ .Whitespace bl :: k :: lex cc (g ++ q) := by
    rw [List.cons_append, lex_join hs hp.1 hb hd]
    rcases hk with ⟨rfl, rfl⟩ | ⟨rfl, rfl⟩
    · rw [List.cons_append, lex_and hs]; rfl
    · rw [List.cons_append, lex_or hs]; rfl
  rw [e]
  have hx := hp.1.plain
  obtain ⟨l1, cs, h1, h2, h3⟩ := list_split (isList_iff.1 hp).2
  have hM := (isList_iff.1 hq).2
  obtain ⟨l2, ds, h4, h5, h6⟩ := list_split hM
  obtain ⟨ns, h7⟩ := layout_lines hs hg.2.1 hq.1.nb (andOr_noLine hM hq.1.nb)
  have hnb : Gram.NoBlank (k :: lex cc (g ++ q)) := by rcases hk with ⟨rfl, -⟩ | ⟨rfl, -⟩ <;> simp [Gram.NoBlank]
  have hop : IsOp k := by rcases hk with ⟨rfl, -⟩ | ⟨rfl, -⟩ <;> simp [IsOp]
  obtain ⟨es, g1, g2⟩ : ∃ es : List (List Nl × AndOr (ListableCommand SPipeable)), RD .andOrRest (k :: lex cc (g ++ q)) es [] ∧
      es.map (·.2) = (if k = .AndIf then .And M.first else .Or M.first) :: M.rest := by
    rcases hk with ⟨rfl, -⟩ | ⟨rfl, -⟩
    · exact ⟨_, .andOrAnd (.refl hnb) h7 h4 h5, by simp [h6]⟩
    · exact ⟨_, .andOrOr (.refl hnb) h7 h4 h5, by simp [h6]⟩
  obtain ⟨hx1, l1', g3, g4⟩ := op_extend (.inr (.inr (.inl rfl))) bl (lex cc (g ++ q)) hx hop
    (by rcases hk with ⟨rfl, -⟩ | ⟨rfl, -⟩ <;> simp [NT.oslack]) h1
  have g5 : RD .andOrRest l1' (cs ++ es) [] := by
    have := rest_join (w := bl) (by rcases hk with ⟨rfl, -⟩ | ⟨rfl, -⟩ <;> simp) g1 hx1 h2
    rcases g4 with rfl | ⟨rfl, rfl⟩
    · exact this
    · exact andOrRest_same ⟨_, skip_blank (.refl hnb), .refl hnb⟩ this
  have := list_make g3 g5
  rw [List.map_append, h3, g2] at this
  exact this

/-- **C62.** `&&` joins lists, and associates to the left. -/
theorem C62_and {bl g : Str} {L M : AndOrList (ListableCommand SPipeable)} (hp : IsList cc p L) (hq : IsList cc q M)
    (hb : SomeBlanks cc bl) (hg : SomeLayout cc g) :
    IsList cc (p ++ bl ++ "&&".toList ++ g ++ q) ⟨L.first, L.rest ++ .And M.first :: M.rest⟩ := by
  simpa using list_and_or hs (.inl ⟨rfl, rfl⟩) hp hq hb hg

/-- **C62.** So does `||`, and it binds no weaker and no stronger than `&&`. -/
theorem C62_or {bl g : Str} {L M : AndOrList (ListableCommand SPipeable)} (hp : IsList cc p L) (hq : IsList cc q M)
    (hb : SomeBlanks cc bl) (hg : SomeLayout cc g) :
    IsList cc (p ++ bl ++ "||".toList ++ g ++ q) ⟨L.first, L.rest ++ .Or M.first :: M.rest⟩ := by
  simpa using list_and_or hs (.inr ⟨rfl, rfl⟩) hp hq hb hg

omit hs in
/-- **C62.** A pipeline is a list. -/
theorem C62_pipeline_list {x : ListableCommand SPipeable} (hp : IsPipeline cc p x) : IsList cc p ⟨x, []⟩ := by
  obtain ⟨h0, h⟩ := isPipeline_iff.1 hp
  exact isList_iff.2 ⟨h0, .andOr h (.andOrEnd (.refl (by simp [Gram.NoBlank])) (by simp)) rfl⟩

omit hs in
/-- **C62.** A command is a pipeline, unless it starts with `!`. -/
theorem C62_command_pipeline {c : SPipeable} (hp : IsCommand cc p c) (hb : p.head? ≠ some '!') : IsPipeline cc p (.Single c) := by
  obtain ⟨h0, h⟩ := isCommand_iff.1 hp
  have hbang : ∀ l, lex cc p ≠ .Bang :: l := by
    intro l e
    have := C01_concat_tokens cc p
    rw [e, concatTokens_cons] at this
    rw [← this] at hb
    exact hb rfl
  refine isPipeline_iff.2 ⟨h0, ?_⟩
  exact pipeline_make h0.nb (.inr ⟨rfl, rfl, hbang⟩) (.pipeLast hbang h (by simp))

/-- **C62.** `|` joins the commands of two pipelines; a `!` before the first one negates all of it. -/
theorem C62_pipe {bl g : Str} {n : Bool} {cs ds : List SPipeable} (hp : IsPipeline cc p (pipeAst n cs)) (hq : IsPipeline cc q (pipeAst false ds))
    (hbare : ∀ c, cs.getLast? = some c → ¬ BareFn c) (hb : SomeBlanks cc bl) (hg : SomeLayout cc g) :
    IsPipeline cc (p ++ bl ++ "|".toList ++ g ++ q) (pipeAst n (cs ++ ds)) := by
  have hd : opStart '|' := delim_op (by decide)
  have e0 : p ++ bl ++ "|".toList ++ g ++ q = p ++ (bl ++ (['|'] ++ (g ++ q))) := by simp
  rw [e0]
  refine isPipeline_iff.2 ⟨neat_join hp.1 hq.1 (isPipeline_ne hp) (isPipeline_ne hq) (by simp) (by decide) hs hb hg, ?_⟩
  have hgh : (g ++ q).head? ≠ some '|' := by
    obtain ⟨c, g', rfl⟩ := List.exists_cons_of_ne_nil hg.1
    rcases layout_head hg.2.1 rfl with h | rfl | rfl
    · rintro e
      cases e
      exact (blank_not_op hs h).1 hd
    · simp
    · simp
  have e : lex cc (p ++ (bl ++ (['|'] ++ (g ++ q)))) = lex cc p ++ .Whitespace bl :: .Pipe :: lex cc (g ++ q) := by
    rw [List.singleton_append, lex_join hs hp.1 hb hd, lex_pipe' hs hgh]
  rw [e]
  have hx := hp.1.plain
  obtain ⟨l2, es, h1, h2, rfl, h3⟩ := pipeline_split hp.1.nb (isPipeline_iff.1 hp).2
  obtain ⟨l3, fs, h4, h5, rfl, h6⟩ := pipeline_split hq.1.nb (isPipeline_iff.1 hq).2
  obtain ⟨-, rfl, h4⟩ := h4.resolve_left (by simp)
  obtain ⟨ns, h7⟩ := layout_lines hs hg.2.1 hq.1.nb (pipelineCmds_noLine h5)
  have hx2 : Gram.Plain none l2 := by
    rcases h1 with ⟨-, e⟩ | ⟨-, rfl, -⟩
    · rw [e] at hx; exact plain_cons hx
    · exact hx
  have hlne : lex cc p ≠ [] := by
    rcases h1 with ⟨-, e⟩ | ⟨-, rfl, -⟩
    · rw [e]; simp
    · exact pipe_ne_nil (.inl rfl) h2
  obtain ⟨gs, g1, g2⟩ := pipe_join (w := bl) h7 h5 hx2 h2 (by
    intro d hd
    exact hbare _ (by rw [List.getLast?_map, Option.mem_def.1 hd]; rfl))
  rw [← g2]
  refine pipeline_make (noBlank_append hp.1.nb hlne hx) ?_ g1
  rcases h1 with ⟨rfl, e⟩ | ⟨rfl, rfl, h1⟩
  · rw [e]; exact .inl ⟨rfl, rfl⟩
  · refine .inr ⟨rfl, rfl, ?_⟩
    obtain ⟨t, l, e⟩ := List.exists_cons_of_ne_nil hlne
    rw [e] at h1 ⊢
    intro l' e2
    simp at e2
    exact h1 l (by rw [e2.1])

/-- **C62.** `!` negates a pipeline, all of it. -/
theorem C62_not {bl : Str} {cs : List SPipeable} (hp : IsPipeline cc p (pipeAst false cs)) (hb : ∀ c ∈ bl, Blank cc c) :
    IsPipeline cc ("!".toList ++ bl ++ p) (pipeAst true cs) := by
  have e0 : "!".toList ++ bl ++ p = '!' :: (bl ++ p) := by simp
  rw [e0]
  have hne := isPipeline_ne hp
  have hnw : ¬ Blank cc '!' := fun h => (blank_not_op hs h).1 (by exact ⟨(['!'], .Bang), by decide, rfl⟩)
  refine isPipeline_iff.2 ⟨⟨?_, ?_, ?_, ?_⟩, ?_⟩
  · intro c hc; cases hc; exact hnw
  · rintro ⟨z, e⟩; cases e
  · intro c hc
    refine hp.1.last c ?_
    rcases List.eq_nil_or_concat p with rfl | ⟨p, d, rfl⟩
    · exact absurd rfl hne
    · rw [← List.cons_append, List.getLast?_append] at hc
      simpa using hc
  · intro h
    have hbl : '<' ∉ bl := fun h => (blank_not_op hs (hb _ h)).1 (delim_op (by decide))
    have key : ∀ u : Str, '<' ∉ u → ¬ ['<', '<'] <:+: u ++ p := by
      intro u hu
      induction u with
      | nil => exact hp.1.here
      | cons c u ih =>
        simp at hu
        intro h
        rcases infix_cut (u := []) (fun e => hu.1 e.symm) h with h | h
        · simp at h
        · exact ih hu.2 h
    exact key ('!' :: bl) (by simp [hbl]) h
  · obtain ⟨l2, es, h1, h2, rfl, h3⟩ := pipeline_split hp.1.nb (isPipeline_iff.1 hp).2
    obtain ⟨-, rfl, hbang⟩ := h1.resolve_left (by simp)
    have e : lex cc ('!' :: (bl ++ p)) = .Bang :: lex cc (bl ++ p) := lex_end hs .Bang _ (by decide) (by decide)
    rw [e]
    have hfill : Filler cc bl := by
      clear h2 e0 e
      induction bl with
      | nil => exact .nil
      | cons c bl ih => exact .blank (hb c (by simp)) (ih fun d hd => hb d (by simp [hd]))
    have hgap : Gap cc bl := ⟨hfill, fun e => by
      cases bl with
      | nil => cases e
      | cons c bl => cases e; exact (blank_not_op hs (hb _ (by simp))).2 rfl⟩
    have hsk := gap_skip hs hgap hp.1.nb
    refine pipeline_make (by simp [Gram.NoBlank]) (.inl ⟨rfl, rfl⟩) (cmds_same hsk ?_ h2)
    intro q e
    rw [e] at hsk
    have := hsk.eq (by simp [Gram.NoBlank])
    exact hbang _ this.symm

omit hs in
theorem optLine_total (l : List Token) : ∃ n r, Gram.OptLine l n r ∧
    ∀ (b : DefaultBuilder.State) ds, Prog (B := DefaultBuilder) b r ds ↔ Prog (B := DefaultBuilder) b l ds := by
  obtain ⟨ns, t, h⟩ := Lines.total l
  obtain ⟨c, l', ms, h1, h2⟩ := lines_opt h
  exact ⟨c, l', h1, fun b ds => (prog_lines h2).symm.trans (prog_lines h)⟩

/-- A list and a separator, and then the rest of the script. -/
theorem list_then {k : Token} {d : Char} {bl : Str} (hk : k = .Semi ∧ d = ';' ∨ k = .Amp ∧ d = '&') {L : AndOrList (ListableCommand SPipeable)}
    (hp : IsList cc p L) (hb : SomeBlanks cc bl) (hq : q.head? ≠ some d) (cs : List SCommand) :
    ParsesTo cc (p ++ (bl ++ d :: q)) cs ↔
      ∃ ds, ParsesTo cc q ds ∧ cs = .mk (if k = .Semi then .List L else .Job L) :: ds := by
  have hd : opStart d := by rcases hk with ⟨-, rfl⟩ | ⟨-, rfl⟩ <;> exact delim_op (by decide)
  have hop : IsOp k := by rcases hk with ⟨rfl, -⟩ | ⟨rfl, -⟩ <;> simp [IsOp]
  have e : lex cc (p ++ (bl ++ d :: q)) = lex cc p ++ .Whitespace bl :: k :: lex cc q := by
    rw [lex_join hs hp.1 hb hd]
    rcases hk with ⟨rfl, rfl⟩ | ⟨rfl, rfl⟩
    · rw [lex_semi' hs hq]
    · rw [lex_amp' hs hq]
  have hx := hp.1.plain
  have hL := (isList_iff.1 hp).2
  obtain ⟨-, r', h1, h2⟩ := op_extend (.inr (.inr (.inr (.inr rfl)))) bl (lex cc q) hx hop
    (by rcases hk with ⟨rfl, -⟩ | ⟨rfl, -⟩ <;> simp [NT.oslack]) hL
  have hne : lex cc p ≠ [] := by
    obtain ⟨l1, cs, h1, -⟩ := list_split hL
    exact pipe_ne_nil (.inr rfl) h1
  have hnb := noBlank_append (Y := .Whitespace bl :: k :: lex cc q) hp.1.nb hne hx
  have h3 := andOr_noBlank h1
  obtain rfl : r' = k :: lex cc q := by
    rcases h2 with rfl | ⟨-, rfl⟩
    · exact absurd rfl (h3.1 _ _)
    · rfl
  obtain ⟨n, r2, h4, h5⟩ := optLine_total (lex cc q)
  have h6 : Reads (B := DefaultBuilder) .top () (lex cc p ++ .Whitespace bl :: k :: lex cc q)
      (some (.mk (if k = .Semi then .List L else .Job L))) r2 () := by
    refine .topCommand (.nil (.refl hnb) (andOr_noLine h1 hnb)) (by simp) ?_
    rcases hk with ⟨rfl, -⟩ | ⟨rfl, -⟩
    · exact .complete h1 (.semi h4) rfl
    · exact .complete h1 (.amp h4) rfl
  rw [parsesTo_iff (b := ()), e]
  constructor
  · intro h
    obtain ⟨cs', rfl, h7⟩ := prog_cons_unique h6 h
    exact ⟨cs', parsesTo_iff.2 ((h5 () _).1 h7), rfl⟩
  · rintro ⟨ds, h7, rfl⟩
    exact .cons h6 ((h5 () _).2 (parsesTo_iff.1 h7))

/-- **C62.** `;` ends a list: what follows is read on its own. -/
theorem C62_semi {bl : Str} {L : AndOrList (ListableCommand SPipeable)} (hp : IsList cc p L) (hb : SomeBlanks cc bl)
    (hq : q.head? ≠ some ';') (cs : List SCommand) :
    ParsesTo cc (p ++ bl ++ ";".toList ++ q) cs ↔ ∃ ds, ParsesTo cc q ds ∧ cs = .mk (.List L) :: ds := by
  simpa using list_then hs (.inl ⟨rfl, rfl⟩) hp hb hq cs

/-- **C62.** `&` ends a list as well, and makes a job of all of it. -/
theorem C62_amp {bl : Str} {L : AndOrList (ListableCommand SPipeable)} (hp : IsList cc p L) (hb : SomeBlanks cc bl)
    (hq : q.head? ≠ some '&') (cs : List SCommand) :
    ParsesTo cc (p ++ bl ++ "&".toList ++ q) cs ↔ ∃ ds, ParsesTo cc q ds ∧ cs = .mk (.Job L) :: ds := by
  simpa using list_then hs (.inr ⟨rfl, rfl⟩) hp hb hq cs

omit hs in
/-- **C62.** A list on its own is a script of one command. -/
theorem C62_list_script {L : AndOrList (ListableCommand SPipeable)} (hp : IsList cc p L) (cs : List SCommand) :
    ParsesTo cc p cs ↔ cs = [.mk (.List L)] := by
  have hL := (isList_iff.1 hp).2
  have hne : lex cc p ≠ [] := by
    obtain ⟨l1, cs, h1, -⟩ := list_split hL
    exact pipe_ne_nil (.inr rfl) h1
  have h6 : Reads (B := DefaultBuilder) .top () (lex cc p) (some (.mk (.List L))) [] () :=
    .topCommand (.nil (.refl hp.1.nb) (andOr_noLine hL hp.1.nb)) hne
      (.complete hL (.other (.refl (by simp [Gram.NoBlank])) (by simp [Gram.NoLineStart]) (by simp)) rfl)
  rw [parsesTo_iff (b := ())]
  constructor
  · intro h
    obtain ⟨cs', rfl, h7⟩ := prog_cons_unique h6 h
    rw [prog_nil h7]
  · rintro rfl
    exact .cons h6 (.done (.topNone lines_nil))

/-- **C62.** `|` binds tighter than `&&` and `||`, which bind as tightly as each other; `&` takes the whole list. -/
theorem C62_precedence {a b c d : Str} {A B C D : SPipeable} (ha : IsCommand cc a A) (hb : IsCommand cc b B) (hc : IsCommand cc c C)
    (hd : IsCommand cc d D) (hbang : ∀ x ∈ [a, b, c, d], x.head? ≠ some '!') (hB : ¬ BareFn B) :
    ParsesTo cc (a ++ " || ".toList ++ b ++ " | ".toList ++ c ++ " && ".toList ++ d ++ " &".toList)
      [.mk (.Job ⟨.Single A, [.Or (.Pipe false [B, C]), .And (.Single D)]⟩)] := by
  have sb : SomeBlanks cc [' '] := ⟨by simp, by simp [Blank, hs.space]⟩
  have sg : SomeLayout cc [' '] := ⟨by simp, .gap ⟨.blank ⟨hs.space, by decide⟩ .nil, by simp⟩, by decide⟩
  have pa := C62_command_pipeline ha (hbang a (by simp))
  have pb := C62_command_pipeline hb (hbang b (by simp))
  have pc := C62_command_pipeline hc (hbang c (by simp))
  have pd := C62_command_pipeline hd (hbang d (by simp))
  have pbc := C62_pipe hs (n := false) (cs := [B]) (ds := [C]) pb pc (by simpa using hB) sb sg
  have l1 := C62_or hs (C62_pipeline_list pa) (C62_pipeline_list pbc) sb sg
  have l2 := C62_and hs l1 (C62_pipeline_list pd) sb sg
  have := (C62_amp hs l2 sb (q := []) (by simp) [.mk (.Job ⟨.Single A, [.Or (.Pipe false [B, C]), .And (.Single D)]⟩)]).2
    ⟨[], (parsesTo_iff (b := ())).2 (by rw [lex_nil]; exact .done (.topNone lines_nil)), rfl⟩
  simpa using this

end

end

/-! ## Cases -/

/-- What a method reads the text as, if it reads it to its end. -/
def readsAll (m : Method) (p : String) : Option (m.Ret DefaultBuilder.toBTypes) :=
  match m.run (parserOn (B := DefaultBuilder) (lex ascii p.toList) ()) with
  | (.ok a, s) => if s.rest.map (·.2) = [] then some a else none
  | _ => none

theorem readsAll_iff {m : Method} {p : String} {a : m.Ret DefaultBuilder.toBTypes} :
    readsAll m p = some a ↔ Parses m (parserOn (lex ascii p.toList) ()) a [] () := by
  unfold readsAll Parses
  rcases hz : m.run (parserOn (B := DefaultBuilder) (lex ascii p.toList) ()) with ⟨x, s⟩
  cases x with
  | ok y => simp [and_comm]
  | _ => simp

def isNeat (p : Str) : Bool :=
  (p.head?.all fun c => !(ascii.whitespace c && c != '\n')) && !(['\\', '\n'].isPrefixOf p) &&
  (p.getLast?.all fun c => c != '\\' && !(ascii.whitespace c && c != '\n')) && decide (¬ ['<', '<'] <:+: p)

theorem isNeat_sound {p : Str} (h : isNeat p = true) : Neat ascii p := by
  simp only [isNeat, Bool.and_eq_true, decide_eq_true_eq, Option.all_eq_true] at h
  obtain ⟨⟨⟨h1, h2⟩, h3⟩, h4⟩ := h
  refine ⟨fun c hc hb => ?_, ?_, fun c hc => ?_, h4⟩
  · have := h1 c hc
    simp [hb.1, hb.2] at this
  · intro h; rw [List.isPrefixOf_iff_prefix.2 h] at h2; cases h2
  · have := h3 c hc
    simp at this
    refine ⟨this.1, fun hb => ?_⟩
    rcases this.2 with h | h
    · rw [hb.1] at h; cases h
    · exact hb.2 h

def isBare : SPipeable → Bool
  | .FunctionDef _ ⟨.Subshell _, []⟩ => true
  | _ => false

theorem isBare_iff {c : SPipeable} : isBare c = true ↔ BareFn c := by
  unfold isBare BareFn
  split <;> simp

/-- The text is a command that is not a function with a bare subshell. -/
def opCommand (p : String) : Bool := isNeat p.toList && (readsAll .command p).any (!isBare ·)

theorem opCommand_sound {p : String} (h : opCommand p = true) : ∃ c, IsCommand ascii p.toList c ∧ ¬ BareFn c := by
  simp only [opCommand, Bool.and_eq_true, Option.any_eq_true] at h
  obtain ⟨h1, c, h2, h3⟩ := h
  refine ⟨c, ⟨isNeat_sound h1, readsAll_iff.1 h2⟩, fun hb => ?_⟩
  rw [isBare_iff.2 hb] at h3
  cases h3

def opA : String := "x=1 grep \"a b\" >f"
def opB : String := "{ b; c && d; } 2>&1"
def opC : String := "while a\ndo\n `b | c`; done"
def opD : String := "f() (a; b)"

/-- Commands of all kinds, of several lines and with operators inside. -/
example : ∃ A B C D : SPipeable, ParsesTo ascii
    (opA.toList ++ " || ".toList ++ opB.toList ++ " | ".toList ++ opC.toList ++ " && ".toList ++ opD.toList ++ " &".toList)
    [.mk (.Job ⟨.Single A, [.Or (.Pipe false [B, C]), .And (.Single D)]⟩)] := by
  have key : ∀ p ∈ [opA, opB, opC], opCommand p = true := by decide +kernel
  have kd : isNeat opD.toList = true ∧ (readsAll .command opD).isSome = true := by decide +kernel
  have kb : ∀ x ∈ [opA.toList, opB.toList, opC.toList, opD.toList], x.head? ≠ some '!' := by decide +kernel
  obtain ⟨A, ha, -⟩ := opCommand_sound (key opA (by simp))
  obtain ⟨B, hb, hB⟩ := opCommand_sound (key opB (by simp))
  obtain ⟨C, hc, -⟩ := opCommand_sound (key opC (by simp))
  obtain ⟨D, hd⟩ := Option.isSome_iff_exists.1 kd.2
  exact ⟨A, B, C, D, C62_precedence ascii_sane ha hb hc ⟨isNeat_sound kd.1, readsAll_iff.1 hd⟩ kb hB⟩

def isSingle : ListableCommand SPipeable → Bool
  | .Single _ => true
  | _ => false

theorem isSingle_iff {x : ListableCommand SPipeable} : isSingle x = true ↔ ∃ c, x = .Single c := by
  cases x <;> simp [isSingle]

theorem single_sound {p : String} (h : isNeat p.toList = true) (h2 : (readsAll .pipeline p).any isSingle = true) :
    ∃ c, IsPipeline ascii p.toList (.Single c) := by
  obtain ⟨x, h3, h4⟩ := (Option.any_eq_true _ _).1 h2
  obtain ⟨c, rfl⟩ := isSingle_iff.1 h4
  exact ⟨c, isNeat_sound h, readsAll_iff.1 h3⟩

/-- The conditions are needed: a text that starts with `!` is a command (its name is `!`) but another pipeline, and after
`function f (a)` nothing is read any more, not even a `|`. -/
theorem C62_conditions_needed :
    (∃ c, IsCommand ascii "! a".toList c ∧ ¬ IsPipeline ascii "! a".toList (.Single c)) ∧
    (∃ c d, IsPipeline ascii "function f (a)".toList (.Single c) ∧ IsPipeline ascii "b".toList (.Single d) ∧
      ∀ x, ¬ IsPipeline ascii "function f (a) | b".toList x) := by
  refine ⟨?_, ?_⟩
  · have k1 : isNeat "! a".toList = true ∧ (readsAll .command "! a").isSome = true ∧ (readsAll .pipeline "! a").any isSingle = false := by
      decide +kernel
    obtain ⟨c, hc⟩ := Option.isSome_iff_exists.1 k1.2.1
    refine ⟨c, ⟨isNeat_sound k1.1, readsAll_iff.1 hc⟩, fun h => ?_⟩
    have h2 := k1.2.2
    rw [readsAll_iff.2 h.2] at h2
    cases h2
  · have k1 : (isNeat "function f (a)".toList = true ∧ (readsAll .pipeline "function f (a)").any isSingle = true) ∧
        isNeat "b".toList = true ∧ (readsAll .pipeline "b").any isSingle = true := by decide +kernel
    obtain ⟨c, hc⟩ := single_sound k1.1.1 k1.1.2
    obtain ⟨d, hd⟩ := single_sound k1.2.1 k1.2.2
    refine ⟨c, d, hc, hd, fun x h => ?_⟩
    have k2 : (readsAll .pipeline "function f (a) | b").isSome = false := by decide +kernel
    rw [readsAll_iff.2 h.2] at k2
    cases k2

/-- The redirection after `function f (a)` is a command of its own; the one after `function f { a;}` is not. -/
theorem C62_function_subshell_redirection : (∃ cs, ParsesTo ascii "function f (a) > x".toList cs ∧ cs.length = 2) ∧
    ∃ cs, ParsesTo ascii "function f { a;} > x".toList cs ∧ cs.length = 1 :=
  ⟨commandCount_sound (by decide +kernel), commandCount_sound (by decide +kernel)⟩

end Conch
