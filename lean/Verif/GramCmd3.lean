import Verif.GramCmd2
/-!
# Exact runs of compound commands, functions and lists, without positions
-/
namespace Conch.Gram
open Conch

section
variable {B : Builder} {R : Rec AIter B}

/-! ## `if`, `while`, `until` -/

theorem Keyword.unique {w w' : Str} {l r r' : List Token} (h : Keyword w l r) (h' : Keyword w' l r') :
    w = w' ∧ r = r' := by
  obtain ⟨h | h, -⟩ := h <;> obtain ⟨h' | h', -⟩ := h' <;> subst h <;> cases h' <;> exact ⟨rfl, rfl⟩

theorem ifBody_elif {p} {l l1 l2 l3 l4 : List Token} {g t acc} {b b1 b2 : B.State}
    (hg : Run (R.group (wordDelim [THEN])) l b g l1 b1) (hgn : g.commands ≠ []) (h1 : Kw THEN l1 l2)
    (ht : Run (R.group (wordDelim [ELIF, ELSE, FI])) l2 b1 t l3 b2) (htn : t.commands ≠ [])
    (h2 : Kw ELIF l3 l4) : Run (ifBody R p acc) l b (.cont (acc ++ [⟨g, t⟩])) l4 b2 := by
  unfold ifBody
  refine .bind (commandGroup_run hg hgn) (.bind (.wordOrIncomplete (List.mem_singleton.2 rfl) h1) ?_)
  refine .bind (commandGroup_run ht htn) (.bind (.wordOrIncomplete (w := ELIF) (by simp) h2) ?_)
  exact .pure

theorem ifBody_else {p} {l l1 l2 l3 l4 l5 r : List Token} {g t acc e} {b b1 b2 b3 : B.State}
    (hg : Run (R.group (wordDelim [THEN])) l b g l1 b1) (hgn : g.commands ≠ []) (h1 : Kw THEN l1 l2)
    (ht : Run (R.group (wordDelim [ELIF, ELSE, FI])) l2 b1 t l3 b2) (htn : t.commands ≠ [])
    (h2 : Kw ELSE l3 l4) (he : Run (R.group (wordDelim [FI])) l4 b2 e l5 b3) (hen : e.commands ≠ [])
    (h3 : Kw FI l5 r) : Run (ifBody R p acc) l b (.done ⟨acc ++ [⟨g, t⟩], some e⟩) r b3 := by
  unfold ifBody
  refine .bind (commandGroup_run hg hgn) (.bind (.wordOrIncomplete (List.mem_singleton.2 rfl) h1) ?_)
  refine .bind (commandGroup_run ht htn) (.bind (.wordOrIncomplete (w := ELSE) (by simp) h2) ?_)
  rw [if_neg (by decide), if_pos rfl]
  exact .bind (commandGroup_run he hen) (.bind (.wordOrIncomplete (List.mem_singleton.2 rfl) h3) .pure)

theorem ifBody_fi {p} {l l1 l2 l3 r : List Token} {g t acc} {b b1 b2 : B.State}
    (hg : Run (R.group (wordDelim [THEN])) l b g l1 b1) (hgn : g.commands ≠ []) (h1 : Kw THEN l1 l2)
    (ht : Run (R.group (wordDelim [ELIF, ELSE, FI])) l2 b1 t l3 b2) (htn : t.commands ≠ [])
    (h2 : Kw FI l3 r) : Run (ifBody R p acc) l b (.done ⟨acc ++ [⟨g, t⟩], none⟩) r b2 := by
  unfold ifBody
  refine .bind (commandGroup_run hg hgn) (.bind (.wordOrIncomplete (List.mem_singleton.2 rfl) h1) ?_)
  refine .bind (commandGroup_run ht htn) (.bind (.wordOrIncomplete (w := FI) (by simp) h2) ?_)
  rw [if_neg (by decide), if_neg (by decide), if_pos rfl]
  exact .pure

theorem if_run {l l' r : List Token} {f} {b b' : B.State} (h : Kw IF l l')
    (hb : ∀ p, LRun (ifBody R p) [] l' b f r b') : Run (ifCommand R) l b f r b' := by
  unfold ifCommand
  exact .getPos fun p => .bind (.wordOrUnexpected (List.mem_singleton.2 rfl) h) (hb p).run

theorem loop_run {k} {l l1 l2 r : List Token} {g body} {b b1 b2 : B.State} (h : Kw (loopWord k) l l1)
    (hg : Run (R.group (wordDelim [DO])) l1 b g l2 b1) (hgn : g.commands ≠ [])
    {l3 l3'} (hs : Skip l2 l3) (hk : Keyword DO l3 l3') (hb : Run (doGroup R) l3 b1 body r b2) :
    Run (loopCommand R) l b (k, ⟨g, body⟩) r b2 := by
  unfold loopCommand
  refine .getPos fun p => .bind (.wordOrUnexpected (w := loopWord k) ?_ h) ?_
  · cases k <;> simp [loopWord]
  refine .bind (a := k) (r := l1) (b' := b) ?_ (.bind (commandGroup_run hg hgn) ?_)
  · cases k
    · rw [if_pos (by decide)]; exact .pure
    · rw [if_neg (by decide), if_pos (by decide)]; exact .pure
  · exact .bind (.peekWord (List.mem_singleton.2 rfl) hs hk) (.bind hb .pure)

/-! ## `for` -/

theorem identifier_name {n x} {l : List Token} {b : B.State} :
    Run (identifier n) (.Name x :: l) b x l b := by
  unfold identifier
  exact .peekCons (Run.getPos fun p => .next .pure)

theorem words_cons {l r : List Token} {acc w} {b b' : B.State} (h : Run (word R) l b (some w) r b') :
    Run (wordsBody R acc) l b (.cont (acc ++ [w])) r b' := by
  unfold wordsBody
  exact .bind h .pure

theorem words_nil {l r : List Token} {acc} {b b' : B.State} (h : Run (word R) l b none r b') :
    Run (wordsBody R acc) l b (.done acc) r b' := by
  unfold wordsBody
  exact .bind h .pure

theorem for_in {p post} {l l1 l2 l3 l4 r : List Token} {ws c ns} {b b' : B.State} (h : Kw IN l l1)
    (hw : LRun (wordsBody R) [] l1 b ws l2 b')
    (h3 : l2 = .Semi :: l3 ∨ l3 = l2 ∧ (∀ l', l2 ≠ .Semi :: l') ∧ c.isSome)
    (hc : OptLine l3 c l4) (hl : Lines l4 ns r) :
    Run (forWords R p post) l b (some (post, ws, c), ns) r b' := by
  unfold forWords
  obtain ⟨l0, hs, hk⟩ := h
  refine .bind (.peekWord (List.mem_singleton.2 rfl) hs hk) ?_
  rw [if_pos (by simp)]
  refine .bind (.word (List.mem_singleton.2 rfl) ⟨l0, .refl hs.noBlank, hk⟩) (.bind hw.run ?_)
  rcases h3 with rfl | ⟨rfl, h3, h4⟩
  · refine .eatYes (.bind (.newline hc) ?_)
    rw [if_neg (by simp)]
    exact .bind (.linebreak hl) .pure
  · refine .eatNo h3 (.bind (.newline hc) ?_)
    rw [if_neg (by cases c <;> simp_all)]
    exact .bind (.linebreak hl) .pure

theorem for_semi {p post} {l l1 r : List Token} {ns} {b : B.State} (h : Skip l (.Semi :: l1))
    (hl : Lines l1 ns r) : Run (forWords R p post) l b (none, ns) r b := by
  unfold forWords
  refine .bind (.peekNoWord (by simp) h ?_) ?_
  · rintro w - r ⟨h | h, -⟩ <;> cases h
  · rw [if_neg (by simp)]
    exact .peekCons (.eat (.bind (.linebreak hl) .pure))

theorem for_do {p post} {l l' r : List Token} {b : B.State} (h : Skip l r) (hk : Keyword DO r l') :
    Run (forWords R p post) l b (none, post) r b := by
  unfold forWords
  refine .bind (.peekNoWord (by simp) h ?_) ?_
  · rintro w hw r' hk'
    rw [List.mem_singleton] at hw; subst hw
    exact absurd (hk.unique hk').1 (by decide)
  · rw [if_neg (by simp)]
    refine .peek ?_
    rw [if_neg (by obtain ⟨rfl | rfl, -⟩ := hk <;> simp)]
    exact .bind (.peekWord (List.mem_singleton.2 rfl) (.refl h.noBlank) hk) .pure

theorem for_run {l l1 l2 l3 l4 l5 r : List Token} {x c post ws pre body} {b b1 b2 : B.State}
    (h : Kw FOR l l1) (hs : Skip l1 (.Name x :: l2)) (hc : OptLine l2 c l3) (hl : Lines l3 post l4)
    (hw : ∀ p, Run (forWords R p post) l4 b (ws, pre) l5 b1)
    {l6 l6'} (hs6 : Skip l5 l6) (hk : Keyword DO l6 l6')
    (hb : Run (doGroup R) l6 b1 body r b2) : Run (forCommand R) l b ⟨x, c, ws, pre, body⟩ r b2 := by
  unfold forCommand
  refine .getPos fun p => .bind (.wordOrUnexpected (List.mem_singleton.2 rfl) h) ?_
  refine .bind (.skip hs) (.bind identifier_name (.bind (.newline hc) (.bind (.linebreak hl) ?_)))
  refine .bind (hw p) ?_
  refine .bind (.peekWord (List.mem_singleton.2 rfl) hs6 hk) ?_
  exact .bind hb .pure

/-! ## `case` -/

theorem pattern_last {p} {l r : List Token} {acc w} {b b' : B.State}
    (h : Run (word R) l b (some w) (.ParenClose :: r) b') :
    Run (patternBody R p acc) l b (.done (acc ++ [w])) r b' := by
  unfold patternBody
  exact .bind h (.peekCons (Run.next .pure))

theorem pattern_cons {p} {l r : List Token} {acc w} {b b' : B.State}
    (h : Run (word R) l b (some w) (.Pipe :: r) b') :
    Run (patternBody R p acc) l b (.cont (acc ++ [w])) r b' := by
  unfold patternBody
  exact .bind h (.peekCons (Run.next .pure))

theorem arm_end {p} {l r r' : List Token} {acc ns} {b : B.State} (h : Lines l ns r) (hk : Keyword ESAC r r') :
    Run (armBody R p acc) l b (.done (acc, ns)) r b := by
  unfold armBody
  exact .bind (.linebreak h) (.bind (.peekWord (List.mem_singleton.2 rfl) (.refl h.noBlank) hk) .pure)

theorem arm_start {p} {l l1 l2 l3 l4 l5 : List Token} {acc pre ps c g} {b b1 b2 : B.State} (h : Lines l pre l1)
    (hk : ∀ r, ¬ Keyword ESAC l1 r) (hp : l1 = .ParenOpen :: l2 ∨ l2 = l1 ∧ ∀ l', l1 ≠ .ParenOpen :: l')
    (hne : l2 ≠ []) (hps : LRun (patternBody R p) [] l2 b ps l3 b1) (hc : OptLine l3 c l4)
    (hg : Run (R.group armDelim) l4 b1 g l5 b2)
    {x r b3} (hx : Run (B := B) (do
      if (← peek) = some .DSemi then
        let _ ← next
        let armComment ← newline
        pure (.cont (acc ++ [⟨⟨pre, ps, c⟩, g, armComment⟩]))
      else
        pure (.done (acc ++ [⟨⟨pre, ps, c⟩, g, none⟩], [])) : P AIter B (Step (CaseSt B) (CaseSt B × List Nl)))
      l5 b2 x r b3) :
    Run (armBody R p acc) l b x r b3 := by
  unfold armBody
  refine .bind (.linebreak h) (.bind (.peekNoWord (by simp) (.refl h.noBlank) ?_) ?_)
  · intro w hw; rw [List.mem_singleton] at hw; subst hw; exact hk
  rw [if_neg (by simp)]
  obtain ⟨t, l2, rfl⟩ := List.exists_cons_of_ne_nil hne
  rcases hp with rfl | ⟨rfl, hp⟩
  · exact .eatYes (.peekCons (.bind hps.run (.bind (.newline hc) (.bind hg hx))))
  · exact .eatNo hp (.peekCons (.bind hps.run (.bind (.newline hc) (.bind hg hx))))

theorem case_run {l l1 l2 l3 l4 l5 l6 l7 r : List Token} {w post c as pre rem} {b b1 b2 : B.State}
    (h : Kw CASE l l1) (hw : Run (word R) l1 b (some w) l2 b1) (hl : Lines l2 post l3) (hi : Kw IN l3 l4)
    (hc : OptLine l4 c l5) (ha : ∀ p, LRun (armBody R p) [] l5 b1 (as, pre) l6 b2) (hr : Lines l6 rem l7)
    (he : Kw ESAC l7 r) : Run (caseCommand R) l b ⟨w, post, c, as, pre ++ rem⟩ r b2 := by
  unfold caseCommand
  refine .getPos fun p => .bind (.wordOrUnexpected (List.mem_singleton.2 rfl) h) (.bind hw ?_)
  refine .bind (.linebreak hl) (.bind (.wordOrIncomplete (List.mem_singleton.2 rfl) hi) ?_)
  refine .bind (.newline hc) (.bind (ha p).run ?_)
  exact .bind (.linebreak hr) (.bind (.wordOrIncomplete (List.mem_singleton.2 rfl) he) .pure)

/-! ## Which command -/

theorem compoundKw_run {l l' : List Token} {b : B.State} {kw} (h : Skip l l') (hk : CompoundStart l' kw) :
    Run nextCompoundCommandType l b (some kw) l' b := by
  unfold nextCompoundCommandType
  refine .bind (.skip h) ?_
  have word : ∀ w r, Keyword w l' r → w ∈ [FOR, CASE, IF, WHILE, UNTIL] → ∀ x, Run (B := B) (do
      if some w = some FOR then pure (some .For)
      else if some w = some CASE then pure (some .Case)
      else if some w = some IF then pure (some .If)
      else if some w = some WHILE then pure (some .While)
      else if some w = some UNTIL then pure (some .Until)
      else pure none : P AIter B (Option CompoundKw)) l' b x l' b → Run (B := B) (do
        if (← peek) = some .ParenOpen then pure (some .Subshell)
        else if (← peekReservedToken [.CurlyOpen]).isSome then pure (some .Brace)
        else
          let w ← peekReservedWord [FOR, CASE, IF, WHILE, UNTIL]
          if w = some FOR then pure (some .For)
          else if w = some CASE then pure (some .Case)
          else if w = some IF then pure (some .If)
          else if w = some WHILE then pure (some .While)
          else if w = some UNTIL then pure (some .Until)
          else pure none : P AIter B (Option CompoundKw)) l' b x l' b := by
    intro w r hk hw x hx
    refine .peek ?_
    rw [if_neg (by obtain ⟨rfl | rfl, -⟩ := hk <;> simp)]
    refine .bind (.peekNoToken (by simp) (by simp [Token.isWs]) (.refl h.noBlank) ?_) ?_
    · intro t ht r' he
      rw [List.mem_singleton] at ht; subst ht
      obtain ⟨rfl | rfl, -⟩ := hk <;> cases he
    · rw [if_neg (by simp)]
      exact .bind (.peekWord hw (.refl h.noBlank) hk) hx
  cases hk with
  | subshell => exact .peekCons .pure
  | brace he =>
    exact .peekCons (.bind (.peekToken (by simp [Token.isWs]) (List.mem_singleton.2 rfl) (.refl h.noBlank) he) .pure)
  | forKw hk => exact word FOR _ hk (by simp) _ (by rw [if_pos rfl]; exact .pure)
  | caseKw hk => exact word CASE _ hk (by simp) _ (by rw [if_neg (by decide), if_pos rfl]; exact .pure)
  | ifKw hk =>
    exact word IF _ hk (by simp) _ (by rw [if_neg (by decide), if_neg (by decide), if_pos rfl]; exact .pure)
  | whileKw hk =>
    exact word WHILE _ hk (by simp) _
      (by rw [if_neg (by decide), if_neg (by decide), if_neg (by decide), if_pos rfl]; exact .pure)
  | untilKw hk =>
    exact word UNTIL _ hk (by simp) _
      (by rw [if_neg (by decide), if_neg (by decide), if_neg (by decide), if_neg (by decide), if_pos rfl]; exact .pure)

theorem noCompound_run {l l' : List Token} {b : B.State} (h : Skip l l') (hk : ∀ kw, ¬ CompoundStart l' kw) :
    Run nextCompoundCommandType l b none l' b := by
  unfold nextCompoundCommandType
  refine .bind (.skip h) (.peek ?_)
  rw [if_neg]
  · refine .bind (.peekNoToken (by simp) (by simp [Token.isWs]) (.refl h.noBlank) ?_) ?_
    · intro t ht r' he h'
      rw [List.mem_singleton] at ht; subst ht he
      exact hk _ (.brace h')
    · rw [if_neg (by simp)]
      refine .bind (.peekNoWord (by simp) (.refl h.noBlank) ?_) ?_
      · intro w hw r hkw
        simp only [List.mem_cons, List.not_mem_nil, or_false] at hw
        rcases hw with rfl | rfl | rfl | rfl | rfl
        · exact hk _ (.forKw hkw)
        · exact hk _ (.caseKw hkw)
        · exact hk _ (.ifKw hkw)
        · exact hk _ (.whileKw hkw)
        · exact hk _ (.untilKw hkw)
      · exact .pure
  · cases l' with
    | nil => simp
    | cons t l' => rintro h; cases h; exact hk _ .subshell

/-! ## Functions -/

theorem parens_run {l r : List Token} {b : B.State} (h : Parens l r) : Run parens l b () r b := by
  obtain ⟨l', rfl, h⟩ := h
  unfold parens
  exact .eat (.bind (.skip h) .eatLast)

theorem eatWs_run {w} {l : List Token} {b : B.State} : Run eatWhitespace (.Whitespace w :: l) b () l b := by
  unfold eatWhitespace
  exact .peekCons (Run.next .pure)

theorem fn_parens {found} {l r : List Token} {b : B.State} (h : Parens l r) :
    Run (functionBodyStart R found) l b none r b := by
  have hr : Run (B := B) (do parens; pure none : P AIter B (Option B.CompoundCommand)) l b none r b :=
    .bind (parens_run h) .pure
  obtain ⟨l', rfl, h⟩ := h
  unfold functionBodyStart
  exact .peekCons hr

theorem fn_newline {r : List Token} {b : B.State} :
    Run (functionBodyStart R true) (.Newline :: r) b none (.Newline :: r) b := by
  unfold functionBodyStart
  exact .peekCons .pure

theorem fn_ws {found w x} {l l' r : List Token} {b b' : B.State} (hs : Skip l l')
    (hx : Run (B := B) (do
      if !found then
        parens
        pure none
      else if (← peek) = some .ParenOpen then
        let g ← subshellInternal R true
        if g.commands.isEmpty && g.trailingComments.isEmpty then pure none
        else
          let c ← call (.subshell g [])
          pure (some c)
      else pure none : P AIter B (Option B.CompoundCommand)) l' b x r b') :
    Run (functionBodyStart R found) (.Whitespace w :: l) b x r b' := by
  unfold functionBodyStart
  refine .peekCons ?_
  rw [if_neg (by simp), if_neg (by simp)]
  exact .bind eatWs_run (.bind (.skip hs) hx)

theorem mpFunction_val' (it : AIter) (l : List Token) :
    (mpFunction (I := AIter) (AMultipeek.mk it l)).1 = true ↔
      (∃ n r, l = .Name n :: .ParenOpen :: r) ∨ ∃ n w r, l = .Name n :: .Whitespace w :: .ParenOpen :: r := by
  unfold mpFunction
  simp only [TokStream.mpNext]
  rcases l with _ | ⟨t, _ | ⟨u, _ | ⟨v, l⟩⟩⟩
  · simp
  · cases t <;> simp [Token.isName]
  · cases t <;> simp [Token.isName, Token.isWs]
    cases u <;> simp
  · cases t <;> simp [Token.isName, Token.isWs]
    cases u <;> simp

theorem maybeFunction_some' {l l' r : List Token} {b b' : B.State} {c} (hs : Skip l l') (h : FunctionStart l')
    (hf : Run (functionDeclaration R) l' b c r b') :
    Run (maybeFunctionDeclaration R) l b (some c) r b' := by
  unfold maybeFunctionDeclaration
  by_cases hk : ∃ r, Keyword FUNCTION l' r
  · obtain ⟨r', hk⟩ := hk
    exact .bind (.peekWord (List.mem_singleton.2 rfl) hs hk) (Run.bind hf .pure)
  · refine .bind (.peekNoWord (by simp) hs ?_) ?_
    · intro w hw; rw [List.mem_singleton] at hw; subst hw; exact fun r h => hk ⟨r, h⟩
    · rw [if_neg (by simp)]
      refine .lookahead true mpFunction_it (fun it => ?_) (Run.bind hf .pure)
      rw [mpFunction_val']
      cases h with
      | keyword h => exact absurd ⟨_, h⟩ hk
      | paren => exact .inl ⟨_, _, rfl⟩
      | wsParen => exact .inr ⟨_, _, _, rfl⟩

theorem maybeFunction_some {l r : List Token} {b b' : B.State} {c} (hb : NoBlank l) (h : FunctionStart l)
    (hf : Run (functionDeclaration R) l b c r b') :
    Run (maybeFunctionDeclaration R) l b (some c) r b' := maybeFunction_some' (.refl hb) h hf

theorem maybeFunction_none' {l l' : List Token} {b : B.State} (hs : Skip l l') (h : ¬ FunctionStart l') :
    Run (maybeFunctionDeclaration R) l b none l' b := by
  unfold maybeFunctionDeclaration
  refine .bind (.peekNoWord (by simp) hs ?_) ?_
  · intro w hw; rw [List.mem_singleton] at hw; subst hw; exact fun r hk => h (.keyword hk)
  · rw [if_neg (by simp)]
    refine .lookahead false mpFunction_it (fun it => ?_) .pure
    rw [← Bool.not_eq_true, mpFunction_val']
    rintro (⟨n, r, rfl⟩ | ⟨n, w, r, rfl⟩)
    · exact h .paren
    · exact h .wsParen

theorem maybeFunction_none {l : List Token} {b : B.State} (hb : NoBlank l) (h : ¬ FunctionStart l) :
    Run (maybeFunctionDeclaration R) l b none l b := maybeFunction_none' (.refl hb) h

theorem function_head {found} {l l1 r : List Token} {x y} {b b' : B.State}
    (h : found = true ∧ Kw FUNCTION l l1 ∨ found = false ∧ l1 = l ∧ ∀ r, ¬ Kw FUNCTION l r)
    {l2} (hs : Skip l1 (.Name x :: l2))
    (hx : Run (B := B) (do
      match ← functionBodyStart R found with
      | some c => pure (x, [], c)
      | none =>
        let comments ← linebreak
        let c ← compoundCommand R
        pure (x, comments, c) : P AIter B (Str × List Nl × B.CompoundCommand)) l2 b y r b') :
    Run (functionDeclarationInternal R) l b y r b' := by
  unfold functionDeclarationInternal
  rcases h with ⟨rfl, l0, hs0, hk⟩ | ⟨rfl, rfl, hk⟩
  · refine .bind (a := true) (r := l1) (b' := b) ?_ (.bind (.skip hs) (.bind identifier_name hx))
    refine .bind (.peekWord (List.mem_singleton.2 rfl) hs0 hk) ?_
    obtain ⟨t, rfl⟩ := hk.cons
    exact Run.next .pure
  · refine .bind (a := false) (r := .Name x :: l2) (b' := b) ?_
      (.bind (.skip (.refl hs.noBlank)) (.bind identifier_name hx))
    refine .bind (.peekNoWord (by simp) hs ?_) .pure
    intro w hw r hkw; rw [List.mem_singleton] at hw; subst hw
    exact hk r ⟨_, hs, hkw⟩

theorem function_run {l r : List Token} {x ns c a} {b b' b'' : B.State}
    (h : Run (functionDeclarationInternal R) l b (x, ns, c) r b')
    (hc : B.call (.functionDeclaration x ns c) b' = (.ok a, b'')) :
    Run (functionDeclaration R) l b a r b'' := by
  unfold functionDeclaration
  exact .bind h (.call hc)

/-! ## Commands, pipelines and lists -/

theorem command_compound {l l' r : List Token} {kw c a} {b b' b'' : B.State} (hs : Skip l l')
    (hk : CompoundStart l' kw) (h : Run (compoundCommandKw R (some kw)) l' b c r b')
    (hc : B.call (.compoundCommandIntoPipeable c) b' = (.ok a, b'')) : Run (command R) l b a r b'' := by
  unfold command
  exact .bind (compoundKw_run hs hk) (.bind h (.call hc))

theorem command_function {l l' r : List Token} {a} {b b' : B.State} (hs : Skip l l')
    (hk : ∀ kw, ¬ CompoundStart l' kw) (hf : FunctionStart l')
    (h : Run (functionDeclaration R) l' b a r b') : Run (command R) l b a r b' := by
  unfold command
  exact .bind (noCompound_run hs hk) (.bind (maybeFunction_some hs.noBlank hf h) .pure)

theorem command_simple {l l' r : List Token} {a} {b b' : B.State} (hs : Skip l l')
    (hk : ∀ kw, ¬ CompoundStart l' kw) (hf : ¬ FunctionStart l')
    (h : Run (simpleCommand R) l' b a r b') : Run (command R) l b a r b' := by
  unfold command
  exact .bind (noCompound_run hs hk) (.bind (maybeFunction_none hs.noBlank hf) h)

theorem pipe_last {l r : List Token} {acc c} {b b' : B.State} (hl : ∀ l', l ≠ .Bang :: l')
    (h : Run (command R) l b c r b') (hr : ∀ r', r ≠ .Pipe :: r') :
    Run (pipelineBody R acc) l b (.done (acc ++ [([], c)])) r b' := by
  unfold pipelineBody
  refine .peek ?_
  rw [if_neg (head_ne hl)]
  exact .bind h (.eatNo hr .pure)

theorem pipe_cons {l l1 r : List Token} {acc c ns} {b b' : B.State} (hl : ∀ l', l ≠ .Bang :: l')
    (h : Run (command R) l b c (.Pipe :: l1) b') (hn : Lines l1 ns r) :
    Run (pipelineBody R acc) l b (.cont (acc ++ [(ns, c)])) r b' := by
  unfold pipelineBody
  refine .peek ?_
  rw [if_neg (head_ne hl)]
  exact .bind h (.eatYes (.bind (.linebreak hn) .pure))

theorem pipeline_run {l l1 l2 r : List Token} {bang cs a} {b b' b'' : B.State} (hs : Skip l l1)
    (hb : bang = true ∧ l1 = .Bang :: l2 ∨ bang = false ∧ l2 = l1 ∧ ∀ l', l1 ≠ .Bang :: l')
    (h : LRun (pipelineBody R) [] l2 b cs r b') (hc : B.call (.pipeline bang cs) b' = (.ok a, b'')) :
    Run (pipeline R) l b a r b'' := by
  unfold pipeline
  refine .bind (.skip hs) ?_
  rcases hb with ⟨rfl, rfl⟩ | ⟨rfl, rfl, hb⟩
  · exact .eatYes (.bind h.run (.call hc))
  · exact .eatNo hb (.bind h.run (.call hc))

theorem andOr_end {l r : List Token} {acc} {b : B.State} (hs : Skip l r)
    (hr : ∀ r', r ≠ .AndIf :: r' ∧ r ≠ .OrIf :: r') : Run (andOrBody R acc) l b (.done acc) r b := by
  unfold andOrBody
  exact .bind (.skip hs) (.eatNo (fun r' => (hr r').1) (Run.eatNo (fun r' => (hr r').2) .pure))

theorem andOr_and {l l1 l2 r : List Token} {acc ns c} {b b' : B.State} (hs : Skip l (.AndIf :: l1))
    (hl : Lines l1 ns l2) (h : Run (pipeline R) l2 b c r b') :
    Run (andOrBody R acc) l b (.cont (acc ++ [(ns, .And c)])) r b' := by
  unfold andOrBody
  exact .bind (.skip hs) (.eatYes (Run.bind (.linebreak hl) (.bind h .pure)))

theorem andOr_or {l l1 l2 r : List Token} {acc ns c} {b b' : B.State} (hs : Skip l (.OrIf :: l1))
    (hl : Lines l1 ns l2) (h : Run (pipeline R) l2 b c r b') :
    Run (andOrBody R acc) l b (.cont (acc ++ [(ns, .Or c)])) r b' := by
  unfold andOrBody
  exact .bind (.skip hs) (.eatNo (by simp) (Run.eatYes (.bind (.linebreak hl) (.bind h .pure))))

theorem andOr_run {l l' r : List Token} {c cs a} {b b' b'' b3 : B.State} (h : Run (pipeline R) l b c l' b')
    (hr : LRun (andOrBody R) [] l' b' cs r b'') (hc : B.call (.andOrList c cs) b'' = (.ok a, b3)) :
    Run (andOrList R) l b a r b3 := by
  unfold andOrList
  exact .bind h (.bind hr.run (.call hc))

theorem separator_run {l r : List Token} {s c} {b : B.State} (h : SepAfter l s c r) :
    Run separator l b (s, c) r b := by
  unfold separator
  cases h with
  | semi h => exact .eatYes (Run.bind (.newline h) .pure)
  | amp h => exact .eatNo (by simp) (Run.eatYes (.bind (.newline h) .pure))
  | newline h hl =>
    exact .eatNo (fun l' => (hl l').1) (Run.eatNo (fun l' => (hl l').2) (.bind (.newline (.some h)) .pure))
  | other h hn hl =>
    exact .eatNo (fun l' => (hl l').1) (Run.eatNo (fun l' => (hl l').2) (.bind (.newline (.none h hn)) .pure))

theorem complete_run {pre} {l l' r : List Token} {c s cm a} {b b' b'' : B.State}
    (h : Run (andOrList R) l b c l' b') (hs : SepAfter l' s cm r)
    (hc : B.call (.completeCommand pre c s cm) b' = (.ok a, b'')) :
    Run (completeCommandWithComments R pre) l b a r b'' := by
  unfold completeCommandWithComments
  exact .bind h (.bind (separator_run hs) (.call hc))

theorem top_command {l l' r : List Token} {ns a} {b b' : B.State} (h : Lines l ns l') (hne : l' ≠ [])
    (hc : Run (completeCommandWithComments R ns) l' b a r b') :
    Run (completeCommand R) l b (some a) r b' := by
  unfold completeCommand
  obtain ⟨t, l', rfl⟩ := List.exists_cons_of_ne_nil hne
  exact .bind (.linebreak h) (.peekCons (Run.bind hc .pure))

theorem top_none {l : List Token} {b : B.State} (h : Lines l [] []) : Run (completeCommand R) l b none [] b := by
  unfold completeCommand
  exact .bind (.linebreak h) (.peekNil .pure)

theorem top_comments {l : List Token} {ns} {b b' : B.State} (h : Lines l ns []) (hn : ns ≠ [])
    (hc : B.call (.comments ns) b = (.ok (), b')) : Run (completeCommand R) l b none [] b' := by
  unfold completeCommand
  refine .bind (.linebreak h) (.peekNil ?_)
  rw [if_neg (by simp), if_neg (by simpa using hn)]
  exact .bind (.call hc) .pure

end
end Conch.Gram
