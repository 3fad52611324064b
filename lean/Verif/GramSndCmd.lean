import Verif.GramSndHere
import Verif.GramCmd3
/-!
# Grammar soundness: redirections and commands
-/
namespace Conch.Gram
open Conch

section
variable {B : Builder} {R : Rec AIter B}

theorem Snd.seq {α β : Type} {l : List Token} {b : B.State} {m : P AIter B α} {f : α → P AIter B β}
    {Q : α → List Token → B.State → Prop} {Q2 : β → List Token → B.State → Prop}
    (h : Snd m l b Q) (hf : ∀ a r b', Q a r b' → Snd (f a) r b' Q2) : Snd (m >>= f) l b Q2 :=
  .bind (h.mono hf)

/-! ## Redirections -/

theorem redirOp_cases {t : Token} (h : t.isRedirOp = true) :
    (∃ mk, (t, mk) ∈ pathOps B.Word) ∨ ∃ mk, (t, mk) ∈ dupOps B.Word := by
  cases t <;> first
    | (cases h; done)
    | (exact .inl ⟨_, by simp [pathOps]; rfl⟩)
    | (exact .inr ⟨_, by simp [dupOps]; rfl⟩)

/-- What a path is. -/
def PathReads (b : B.State) (l : List Token) (w : B.Word) (r : List Token) (b' : B.State) : Prop :=
  ∃ k b1, Reads (.rawWord none) b l (some k) r b1 ∧ Calls (.word k) b1 w b'

theorem snd_getPath (hR : SndRec R) (l : List Token) (b : B.State) :
    Snd (getPath R) l b (PathReads b l) := by
  unfold getPath
  refine .seq (snd_rawWord hR none _ _) ?_
  rintro (_ | k) r b' h
  · exact .unexpected
  · exact .call fun a b'' hc => ⟨k, b', h, hc⟩

/-- What a descriptor to duplicate is. -/
inductive DupReads (b : B.State) (l : List Token) : B.Word → List Token → B.State → Prop
  | dash {w r b'} : l = .Dash :: r → EndsWord r →
      Calls (.word (.Single (.Simple (.Literal Token.Dash.asStr)))) b w b' → DupReads b l w r b'
  | word {k b1 w r b'} : (∀ r, l = .Dash :: r → ¬ EndsWord r) →
      Reads (.rawWord none) b l (some k) r b1 → NumericWord k → Calls (.word k) b1 w b' →
      DupReads b l w r b'

theorem snd_getDupPath (hR : SndRec R) (l : List Token) (b : B.State) (hl : NoBlank l) :
    Snd (getDupPath R) l b (DupReads b l) := by
  unfold getDupPath
  refine .peekToken (by simp) (by simp [Token.isWs]) ?_ ?_
  · intro t r hs ht he
    simp only [List.mem_singleton] at ht
    subst ht
    dsimp only [Option.isSome_some]
    rw [if_pos (by simp)]
    refine .token (by simp) (by simp [Token.isWs]) ?_
    intro t r' hs' ht' he'
    simp only [List.mem_singleton] at ht'
    subst ht'
    have h1 := hs'.of_noBlank hs.noBlank
    cases h1
    exact .call fun a b'' hc => .dash (hs.of_noBlank hl).symm he hc
  · intro l' hs hn
    obtain rfl := hs.of_noBlank hl
    dsimp only [Option.isSome_none]
    rw [if_neg (by simp)]
    refine .getPos fun p => .seq (snd_rawWord hR none _ _) ?_
    rintro (_ | k) r b' h
    · exact .unexpected
    · refine Snd.ite (fun hk => ?_) fun _ => .getPos fun _ => .fail
      exact .call fun a b'' hc => .word (fun r => hn _ (by simp) r) h ((numeric_iff k).1 hk) hc

theorem snd_redirectTail (hR : SndRec R) (fd : Option Nat) (t : Token) (l : List Token) (b : B.State) :
    Snd (redirectTail R fd t) l b fun a r b' => Reads (B := B) (.redirTail fd) b (t :: l) a r b' := by
  unfold redirectTail
  refine .skip fun l' hl => ?_
  have path : ∀ mk, (t, mk) ∈ pathOps B.Word → Snd (do let w ← getPath R; call (.redirect (mk fd w))) l' b
      fun a r b' => Reads (B := B) (.redirTail fd) b (t :: l) a r b' := by
    intro mk hm
    refine .seq (snd_getPath hR _ _) ?_
    rintro w r b' ⟨k, b1, h, hc⟩
    exact .call fun a b'' ha => .redirPath hm hl h hc ha
  have dup : ∀ mk, (t, mk) ∈ dupOps B.Word → Snd (do let w ← getDupPath R; call (.redirect (mk fd w))) l' b
      fun a r b' => Reads (B := B) (.redirTail fd) b (t :: l) a r b' := by
    intro mk hm
    refine .seq (snd_getDupPath hR _ _ hl.noBlank) ?_
    rintro w r b' h
    refine .call fun a b'' ha => ?_
    cases h with
    | dash h he hc => subst h; exact .redirDupDash hm hl he hc ha
    | word hn h hk hc => exact .redirDup hm hl hn h hk hc ha
  cases t
  case Less => exact path _ (by simp [pathOps])
  case Great => exact path _ (by simp [pathOps])
  case DGreat => exact path _ (by simp [pathOps])
  case Clobber => exact path _ (by simp [pathOps])
  case LessGreat => exact path _ (by simp [pathOps])
  case LessAnd => exact dup _ (by simp [dupOps])
  case GreatAnd => exact dup _ (by simp [dupOps])
  all_goals exact .panicAt

theorem isRedirOp_mem {t : Token} (h : t.isRedirOp = true) : t ∈ redirOps := by
  cases t <;> first | (cases h; done) | simp [redirOps]

/-- What is read after the optional descriptor. -/
def FdReads (fd : Option (Nat × ComplexWordKind B.Command)) (b : B.State) (l : List Token) :
    Option (B.Redirect ⊕ B.Word) → List Token → B.State → Prop
  | some (.inl a), r, b' => ∃ t l', l = t :: l' ∧ t ∈ redirOps ∧
      Reads (.redirTail (fd.map (·.1))) b l a r b'
  | some (.inr w), r, b' => r = l ∧ (∀ t l', l = t :: l' → t ∉ redirOps) ∧
      ∃ n k, fd = some (n, k) ∧ Calls (.word k) b w b'
  | none, r, b' => r = l ∧ b' = b ∧ (∀ t l', l = t :: l' → t ∉ redirOps) ∧ fd = none

theorem snd_redirectFd (hR : SndRec R) (fd : Option (Nat × ComplexWordKind B.Command)) (l : List Token)
    (b : B.State) : Snd (redirectFd R fd) l b (FdReads fd b l) := by
  unfold redirectFd
  have hno : (∀ t l', l = t :: l' → t ∉ redirOps) → Snd (match fd with
    | some (_, w) => do
      let w ← call (.word w)
      pure (some (.inr w))
    | none => pure none : P AIter B (Option (B.Redirect ⊕ B.Word))) l b (FdReads fd b l) := by
    intro hn
    cases fd with
    | none => exact .pure ⟨rfl, rfl, hn, rfl⟩
    | some x =>
      refine .bind (.call fun a b' hc => .pure ⟨rfl, hn, _, _, rfl, hc⟩)
  refine .peek ?_
  cases l with
  | nil => exact hno (by simp)
  | cons t l =>
    refine .ite (fun h => ?_) fun h => ?_
    · refine Snd.next (.seq (snd_redirectTail hR _ t l b) fun a r b' h' => .pure ?_)
      exact ⟨t, l, rfl, isRedirOp_mem h, h'⟩
    · refine .ite (fun h' => ?_) fun h' => ?_
      · refine .seq (snd_heredoc hR _ _ b) fun a r b' hh => .pure ⟨t, l, rfl, ?_, .redirHeredoc hh⟩
        simp only [List.head?_cons, Option.some.injEq, Bool.or_eq_true, decide_eq_true_eq] at h'
        exact (redirOps_iff _).2 (.inr (by assumption))
      · refine hno ?_
        rintro t' l' ⟨⟩
        rw [redirOps_iff]
        simp only [List.head?_cons, Option.any_some, Option.some.injEq, Bool.or_eq_true, decide_eq_true_eq] at h h'
        simp [h, h']

theorem snd_redirect (hR : SndRec R) : Sound .redirect (redirect R) := by
  intro l b
  unfold redirect
  refine .seq (snd_rawWord hR none _ _) ?_
  rintro (_ | k) r b' h
  · refine (snd_redirectFd hR none r b').mono ?_
    rintro (_ | a | w) r' b'' h'
    · obtain ⟨rfl, rfl, h1, -⟩ := h'
      exact .noRedirect h h1
    · obtain ⟨t, l', rfl, ht, h'⟩ := h'
      exact .redirect h ht h'
    · obtain ⟨_, _, n, k, h, _⟩ := h'
      cases h
  · dsimp only
    cases hn : k.asNum with
    | none =>
      refine .bind (.call fun a b'' hc => .pure (.redirectWord h ?_ hc))
      rintro ⟨n, hk⟩
      rw [(asNum_iff k n).2 hk] at hn
      cases hn
    | some n =>
      refine (snd_redirectFd hR (some (n, k)) r b').mono ?_
      rintro (_ | a | w) r' b'' h'
      · obtain ⟨_, _, _, h⟩ := h'
        cases h
      · obtain ⟨t, l', rfl, ht, h'⟩ := h'
        exact .redirectFd h ((asNum_iff k n).1 hn) ht h'
      · obtain ⟨rfl, h1, n, k, h2, hc⟩ := h'
        cases h2
        exact .redirectWord h (fun _ => h1) hc

theorem snd_redirects (hR : SndRec R) : Sound .redirects (redirectList R) := by
  intro l b
  unfold redirectList
  refine (Snd.collect (fun b l y r b' => Reads (B := B) .redirects b l y r b') ?_).mono ?_
  · intro x l b
    unfold redirectListBody
    refine .skip fun l' hl => .getPos fun p => .seq (snd_redirect hR _ _) ?_
    rintro (_ | a | w) r' b'' h
    · exact .pure ⟨[], by simp, .redirectsNil hl h⟩
    · exact .pure ⟨[a], rfl, fun z r' b3 hz => .redirectsCons hl h hz⟩
    · exact .getPos fun _ => .fail
  · rintro a r b' ⟨y, rfl, h⟩
    exact h

/-! ## Simple commands -/

/-- What an iteration before the command name ensures. -/
def AssignInv (b0 : B.State) (l0 : List Token) (x : List (RedirectOrEnvVar B.Redirect Str B.Word))
    (l : List Token) (b : B.State) : Prop :=
  ∀ y e r b', Reads .assigns b l (y, e) r b' → Reads .assigns b0 l0 (x ++ y, e) r b'

theorem snd_assigns (hR : SndRec R) : Sound .assigns (loop (simplePrefixBody R) []) := by
  intro l b
  refine .loop (AssignInv b l) (fun y e r b' h => h) ?_
  intro x l' b' hI
  unfold simplePrefixBody
  refine .skip fun l1 h1 => .lookahead mpAssignment_it fun it => .ite (fun h => ?_) fun h => ?_
  · obtain ⟨v, r, rfl⟩ := (mpAssignment_val it l1).1 h
    refine Snd.next (Snd.next ?_)
    refine .bind (.peek (.ite (fun hw => .pure (.pure ?_)) fun hw => .mono (snd_word hR _ _) ?_))
    · intro y e r' b'' h
      cases r with
      | nil => cases hw
      | cons t r =>
        cases t <;> try (cases hw; done)
        rw [List.append_assoc]
        exact hI _ _ _ _ (.assignEmpty h1 h)
    · intro w l2 b'' hw2
      refine .pure ?_
      intro y e r' b3 h
      rw [List.append_assoc]
      refine hI _ _ _ _ (.assign h1 ?_ hw2 h)
      rintro w l2 rfl
      exact hw rfl
  · rw [mpAssignment_val] at h
    refine .seq (snd_redirect hR _ _) ?_
    rintro (_ | a | w) r' b'' h'
    · refine .pure ?_
      have := hI _ _ _ _ (.assignsEnd h1 h h')
      simpa [LStep] using this
    · refine .pure ?_
      intro y e r b3 hy
      rw [List.append_assoc]
      exact hI _ _ _ _ (.assignsRedirect h1 h h' hy)
    · refine .pure ?_
      have := hI _ _ _ _ (.assignsWord h1 h h')
      simpa [LStep] using this

theorem snd_args (hR : SndRec R) (x : List (RedirectOrCmdWord B.Redirect B.Word)) (l : List Token) (b : B.State) :
    Snd (loop (simpleArgsBody R) x) l b fun a r b' =>
      ∃ y, a = x ++ y ∧ Reads (B := B) .args b l y r b' := by
  refine Snd.collect (fun b l y r b' => Reads (B := B) .args b l y r b') ?_
  intro x l b
  unfold simpleArgsBody
  refine .seq (snd_redirect hR _ _) ?_
  rintro (_ | a | w) r' b'' h
  · exact .pure ⟨[], by simp, .argsEnd h⟩
  · exact .pure ⟨[_], rfl, fun z r' b3 hz => .argsRedirect h hz⟩
  · exact .pure ⟨[_], rfl, fun z r' b3 hz => .argsWord h hz⟩

theorem snd_simple (hR : SndRec R) : Sound .simple (simpleCommand R) := by
  intro l b
  unfold simpleCommand
  refine .seq (snd_assigns hR _ _) ?_
  rintro ⟨vs, e⟩ l' b' h1
  refine .seq (snd_args hR _ _ _) ?_
  rintro _ r b'' ⟨as, rfl, h2⟩
  refine .ite (fun _ => .unexpected) fun h => .call fun c b3 hc => .simple h1 h2 ?_ hc
  by_cases hv : vs = []
  · right
    cases e with
    | some _ => exact .inl rfl
    | none =>
      right
      rintro rfl
      exact h (by simp [hv])
  · exact .inl hv

/-! ## Groups -/

theorem snd_commandGroup (hR : SndRec R) {cfg : Delims} (hp : Delims.Proper cfg) (l : List Token) (b : B.State) :
    Snd (commandGroup R cfg) l b fun g r b' => Reads (B := B) (.group cfg) b l g r b' ∧ g.commands ≠ [] := by
  unfold commandGroup
  refine .seq (hR.group cfg hp _ _) fun g r b' h => ?_
  exact .ite (fun _ => .unexpected) fun hg => .pure ⟨h, by simpa using hg⟩

theorem snd_doGroup (hR : SndRec R) : Sound .doGroup (doGroup R) := by
  intro l b
  unfold doGroup
  refine .getPos fun p => .wordOrUnexpected (by simp) fun w l1 hw h1 => ?_
  simp only [List.mem_singleton] at hw
  subst hw
  refine .seq (snd_commandGroup hR (proper_word [DONE]) _ _) ?_
  rintro g l2 b' ⟨hg, hne⟩
  refine .wordOrIncomplete (by simp) fun w r hw h2 => .pure ?_
  simp only [List.mem_singleton] at hw
  subst hw
  exact .doGroup h1 hg hne h2

theorem snd_brace (hR : SndRec R) : Sound .brace (braceGroup R) := by
  intro l b
  unfold braceGroup
  refine .getPos fun p => .token (by simp) (by simp [Token.isWs]) fun t l1 h1 ht he => ?_
  simp only [List.mem_singleton] at ht
  subst ht
  refine .seq (snd_commandGroup hR proper_brace _ _) ?_
  rintro g l2 b' ⟨hg, hne⟩
  refine .token' (by simp) (by simp [Token.isWs]) (fun t r h2 ht he2 => .pure ?_) fun l' => ?_
  · simp only [List.mem_singleton] at ht
    subst ht
    exact .brace h1 he hg hne h2 he2
  · cases l' with
    | nil => exact .nextNil .fail
    | cons t l' => exact Snd.next .fail

/-! ## Compound commands -/

theorem Reads.doGroup_skip {b b' : B.State} {l l' g r} (hs : Skip l l')
    (h : Reads .doGroup b l' g r b') : Reads .doGroup b l g r b' := by
  cases h with
  | doGroup h1 h2 h3 h4 =>
    obtain ⟨l2, hs2, hk⟩ := h1
    obtain rfl := hs2.of_noBlank hs.noBlank
    exact .doGroup ⟨_, hs, hk⟩ h2 h3 h4

theorem snd_loop (hR : SndRec R) : Sound .loopCommand (loopCommand R) := by
  intro l b
  unfold loopCommand
  refine .getPos fun p => .wordOrUnexpected (by simp) fun w l1 hw h1 => ?_
  have main : ∀ k, Kw (loopWord k) l l1 → Snd (do
      let guard ← commandGroup R (wordDelim [DO])
      if (← peekReservedWord [DO]).isSome then
        let body ← doGroup R
        pure (k, ⟨guard, body⟩)
      else
        let pos ← getPos
        fail (.IncompleteCmd WHILE p DO pos) : P AIter B (LoopKind × GuardBodyPairGroup B.Command)) l1 b
      fun a r b' => Reads (B := B) .loopCommand b l a r b' := by
    intro k hk
    refine .seq (snd_commandGroup hR (proper_word [DO]) _ _) ?_
    rintro g l2 b' ⟨hg, hne⟩
    refine .peekWord (by simp) (fun l' w r hs hw hk' => ?_) fun l' hs hn => .getPos fun _ => .fail
    rw [if_pos (by simp)]
    exact .seq (snd_doGroup hR _ _) fun body r b'' h => .pure (.loopCommand hk hg hne (h.doGroup_skip hs))
  refine .bind ?_
  refine .ite (fun h => .pure ?_) fun h => .ite (fun h => .pure ?_) fun h => .panicAt
  · subst h; exact main .While h1
  · subst h; exact main .Until h1

/-- What has been read of an `if` command. -/
def IfInv (b0 : B.State) (l0 : List Token) (x : List (GuardBodyPairGroup B.Command))
    (l : List Token) (b : B.State) : Prop :=
  ∀ y e r b', Reads .ifArms b l ⟨y, e⟩ r b' → Reads .ifArms b0 l0 ⟨x ++ y, e⟩ r b'

theorem snd_if (hR : SndRec R) : Sound .ifCommand (ifCommand R) := by
  intro l b
  unfold ifCommand
  refine .getPos fun p => .wordOrUnexpected (by simp) fun w l1 hw h1 => ?_
  simp only [List.mem_singleton] at hw
  subst hw
  refine .mono (Q := fun f r b' => Reads (B := B) .ifArms b l1 f r b') ?_ fun f r b' h => .ifCommand h1 h
  refine .loop (IfInv b l1) (fun y e r b' h => h) ?_
  intro x l b hI
  unfold ifBody
  refine .seq (snd_commandGroup hR (proper_word [THEN]) _ _) ?_
  rintro g l1 b1 ⟨hg, hgn⟩
  refine .wordOrIncomplete (by simp) fun w l2 hw h2 => ?_
  simp only [List.mem_singleton] at hw
  subst hw
  refine .seq (snd_commandGroup hR (proper_word [ELIF, ELSE, FI]) _ _) ?_
  rintro t l3 b2 ⟨ht, htn⟩
  refine .wordOrIncomplete (by simp) fun w l4 hw h3 => ?_
  refine .ite (fun h => .pure ?_) fun _ => .ite (fun h => ?_) fun _ => .ite (fun h => .pure ?_) fun _ => .panicAt
  · subst h
    intro y e r b' hy
    rw [List.append_assoc]
    exact hI _ _ _ _ (.ifElif hg hgn h2 ht htn h3 hy)
  · subst h
    refine .seq (snd_commandGroup hR (proper_word [FI]) _ _) ?_
    rintro e l5 b3 ⟨he, hen⟩
    refine .wordOrIncomplete (by simp) fun w r hw h4 => .pure ?_
    simp only [List.mem_singleton] at hw
    subst hw
    exact hI _ _ _ _ (.ifElse hg hgn h2 ht htn h3 he hen h4)
  · subst h
    exact hI _ _ _ _ (.ifFi hg hgn h2 ht htn h3)

theorem Snd.identifier {β : Type} {n} {l : List Token} {b : B.State} {f : Str → P AIter B β}
    {Q : β → List Token → B.State → Prop} (h : ∀ x r, l = .Name x :: r → Snd (f x) r b Q) :
    Snd (identifier n >>= f) l b Q := by
  refine .bind ?_
  unfold Conch.identifier
  refine .peek ?_
  cases l with
  | nil => exact .unexpected
  | cons t l =>
    refine .ite (fun _ => .getPos fun _ => ?_) fun _ => .unexpected
    refine Snd.next ?_
    cases t
    case Name => exact .pure (h _ l rfl)
    case Literal => exact .fail
    all_goals exact .panicAt

theorem snd_words (hR : SndRec R) : Sound .words (loop (wordsBody R) []) := by
  intro l b
  refine (Snd.collect (fun b l y r b' => Reads (B := B) .words b l y r b') ?_).mono ?_
  · intro x l b
    unfold wordsBody
    refine .seq (snd_word hR _ _) ?_
    rintro (_ | w) r b' h
    · exact .pure ⟨[], by simp, .wordsNil h⟩
    · exact .pure ⟨[w], rfl, fun z r' b3 hz => .wordsCons h hz⟩
  · rintro a r b' ⟨y, rfl, h⟩
    exact h

theorem snd_forWords (hR : SndRec R) (p : SourcePos) (post : List Nl) :
    Sound (.forWords post) (forWords R p post) := by
  intro l b
  unfold forWords
  refine .peekWord (by simp) (fun l' w r hs hw hk => ?_) fun l' hs hn => ?_
  · simp only [List.mem_singleton] at hw
    subst hw
    rw [if_pos (by simp)]
    refine .word (by simp) (fun w l1 hw h1 => ?_) fun l2 hs2 hn => .panicAt
    simp only [List.mem_singleton] at hw
    subst hw
    have h1' : Kw IN l l1 := by
      obtain ⟨l2, hs2, hk2⟩ := h1
      obtain rfl := hs2.of_noBlank hs.noBlank
      exact ⟨_, hs, hk2⟩
    refine .seq (snd_words hR _ _) fun ws l2 b' hws => ?_
    refine .eatMaybe (fun l3 hl => .newline fun c l4 hc => ?_) fun hl => .newline fun c l4 hc => ?_
    · rw [if_neg (by simp)]
      exact .linebreak fun ns r hns => .pure (.forIn h1' hws (.inl hl) hc hns)
    · refine .ite (fun _ => .unexpected) fun h => ?_
      refine .linebreak fun ns r hns => .pure (.forIn h1' hws (.inr ⟨rfl, hl, ?_⟩) hc hns)
      cases c <;> simp_all
  · rw [if_neg (by simp)]
    refine .peek (.ite (fun h => ?_) fun h => ?_)
    · refine .eat fun l1 hl => .linebreak fun ns r hns => .pure ?_
      subst hl
      exact .forSemi hs hns
    · refine .peekWord (by simp) (fun l2 w r hs2 hw hk => ?_) fun l2 hs2 hn => .getPos fun _ => .fail
      rw [if_neg (by simp)]
      simp only [List.mem_singleton] at hw
      subst hw
      obtain rfl := hs2.of_noBlank hs.noBlank
      exact .pure (.forDo hs hk)

theorem snd_for (hR : SndRec R) : Sound .forCommand (forCommand R) := by
  intro l b
  unfold forCommand
  refine .getPos fun p => .wordOrUnexpected (by simp) fun w l1 hw h1 => ?_
  simp only [List.mem_singleton] at hw
  subst hw
  refine .skip fun l' hs => .identifier fun x l2 hl => .newline fun c l3 hc => .linebreak fun post l4 hp => ?_
  subst hl
  refine .seq (snd_forWords hR p post _ _) ?_
  rintro ⟨ws, pre⟩ l5 b1 hw
  refine .peekWord (by simp) (fun l6 w r hs6 _ _ => ?_) fun l2 hs2 hn => .getPos fun _ => .fail
  rw [if_neg (by simp)]
  exact .seq (snd_doGroup hR _ _) fun body r b'' h => .pure (.forCommand h1 hs hc hp hw (h.doGroup_skip hs6))

theorem snd_patterns (hR : SndRec R) (p : SourcePos) : Sound .patterns (loop (patternBody R p) []) := by
  intro l b
  refine (Snd.collect (fun b l y r b' => Reads (B := B) .patterns b l y r b') ?_).mono ?_
  · intro x l b
    unfold patternBody
    refine .seq (snd_word hR _ _) ?_
    rintro (_ | w) r b' h
    · exact .unexpected
    · refine .peek ?_
      cases r with
      | nil => exact .getPos fun _ => .fail
      | cons t r =>
        cases t
        case Pipe => exact Snd.next (.pure ⟨[w], rfl, fun z r' b3 hz => .patternCons h hz⟩)
        case ParenClose => exact Snd.next (.pure ⟨[w], rfl, .patternLast h⟩)
        all_goals exact .unexpected
  · rintro a r b' ⟨y, rfl, h⟩
    exact h

/-- What has been read of the arms of a `case` command. -/
def ArmInv (b0 : B.State) (l0 : List Token) (x : CaseSt B) (l : List Token) (b : B.State) : Prop :=
  ∀ y ns r b', Reads .arms b l (y, ns) r b' → Reads .arms b0 l0 (x ++ y, ns) r b'

theorem snd_arms (hR : SndRec R) (p : SourcePos) : Sound .arms (loop (armBody R p) []) := by
  intro l b
  refine .loop (ArmInv b l) (fun y e r b' h => h) ?_
  generalize hb0 : b = b0
  generalize hl0 : l = l0
  clear hb0 hl0 l b
  intro x l b hI
  unfold armBody
  refine .linebreak fun pre l1 hl => .peekWord (by simp) (fun l' w r hs hw hk => ?_) fun l' hs hn => ?_
  · rw [if_pos (by simp)]
    obtain rfl := hs.of_noBlank hl.noBlank
    simp only [List.mem_singleton] at hw
    subst hw
    refine .pure ?_
    have := hI _ _ _ _ (.armsEnd hl hk)
    simpa [LStep] using this
  · rw [if_neg (by simp)]
    have hl1 := hs.of_noBlank hl.noBlank
    subst hl1
    have hn' := hn _ (List.mem_singleton.2 rfl)
    have main : ∀ l2, (l' = .ParenOpen :: l2 ∨ l2 = l' ∧ ∀ l2, l' ≠ .ParenOpen :: l2) → Snd (do
        match ← peek with
        | none => missingEsac p
        | some _ =>
          let patterns ← loop (patternBody R p) []
          let comment ← newline
          let body ← R.group armDelim
          if (← peek) = some .DSemi then
            let _ ← next
            let armComment ← newline
            pure (.cont (x ++ [⟨⟨pre, patterns, comment⟩, body, armComment⟩]))
          else
            pure (.done (x ++ [⟨⟨pre, patterns, comment⟩, body, none⟩], [])) :
          P AIter B (Step (CaseSt B) (CaseSt B × List Nl))) l2 b
          (LStep (ArmInv b0 l0) fun a r b' => Reads (B := B) .arms b0 l0 a r b') := by
      intro l2 h2
      refine .peek ?_
      cases l2 with
      | nil => exact .getPos fun _ => .fail
      | cons t l2 =>
        refine .seq (snd_patterns hR p _ _) fun ps l3 b1 hps => .newline fun c l4 hc => ?_
        refine .seq (hR.group armDelim proper_arm _ _) fun g l5 b2 hg => .peek (.ite (fun h => ?_) fun h => ?_)
        · cases l5 with
          | nil => cases h
          | cons t l5 =>
            cases h
            refine Snd.next (.newline fun ac l6 hac => .pure ?_)
            intro y ns r b' hy
            rw [List.append_assoc]
            exact hI _ _ _ _ (.armsCons hl hn' h2 hps hc hg hac hy)
        · refine .pure (hI _ _ _ _ (.armsLast hl hn' h2 hps hc hg ?_))
          rintro r' rfl
          exact h rfl
    exact .eatMaybe (fun r hr => main r (.inl hr)) fun hr => main _ (.inr ⟨rfl, hr⟩)

theorem snd_case (hR : SndRec R) : Sound .caseCommand (caseCommand R) := by
  intro l b
  unfold caseCommand
  refine .getPos fun p => .wordOrUnexpected (by simp) fun w l1 hw h1 => ?_
  simp only [List.mem_singleton] at hw
  subst hw
  refine .seq (snd_word hR _ _) ?_
  rintro (_ | w) l2 b1 hw
  · exact .unexpected
  · refine .linebreak fun post l3 hl => .wordOrIncomplete (by simp) fun k l4 hk hi => .newline fun c l5 hc => ?_
    simp only [List.mem_singleton] at hk
    subst hk
    refine .seq (snd_arms hR p _ _) ?_
    rintro ⟨as, pre⟩ l6 b2 ha
    refine .linebreak fun rem l7 hr => .wordOrIncomplete (by simp) fun k r hk he => .pure ?_
    simp only [List.mem_singleton] at hk
    subst hk
    exact .caseCommand h1 hw hl hi hc ha hr he

theorem snd_compound (hR : SndRec R) (kw : CompoundKw) :
    Sound (.compound kw) (compoundCommandKw R (some kw)) := by
  intro l b
  cases kw
  case If =>
    refine .seq (snd_if hR _ _) fun f l' b1 h => .seq (snd_redirects hR _ _) fun io r b2 h2 => ?_
    exact .call fun c b3 hc => .compoundIf h h2 hc
  case While =>
    refine .seq (snd_loop hR _ _) fun f l' b1 h => .seq (snd_redirects hR _ _) fun io r b2 h2 => ?_
    exact .call fun c b3 hc => .compoundLoop (.inl rfl) h h2 hc
  case Until =>
    refine .seq (snd_loop hR _ _) fun f l' b1 h => .seq (snd_redirects hR _ _) fun io r b2 h2 => ?_
    exact .call fun c b3 hc => .compoundLoop (.inr rfl) h h2 hc
  case For =>
    refine .seq (snd_for hR _ _) fun f l' b1 h => .seq (snd_redirects hR _ _) fun io r b2 h2 => ?_
    exact .call fun c b3 hc => .compoundFor h h2 hc
  case Case =>
    refine .seq (snd_case hR _ _) fun f l' b1 h => .seq (snd_redirects hR _ _) fun io r b2 h2 => ?_
    exact .call fun c b3 hc => .compoundCase h h2 hc
  case Brace =>
    refine .seq (snd_brace hR _ _) fun f l' b1 h => .seq (snd_redirects hR _ _) fun io r b2 h2 => ?_
    exact .call fun c b3 hc => .compoundBrace h h2 hc
  case Subshell =>
    refine .seq (snd_subshell hR false _ _) fun f l' b1 h => .seq (snd_redirects hR _ _) fun io r b2 h2 => ?_
    exact .call fun c b3 hc => .compoundSubshell h h2 hc

/-! ## Functions -/

theorem Snd.compoundType {β : Type} {l : List Token} {b : B.State} {f : Option CompoundKw → P AIter B β}
    {Q : β → List Token → B.State → Prop}
    (h1 : ∀ l' kw, Skip l l' → CompoundStart l' kw → Snd (f (some kw)) l' b Q)
    (h2 : ∀ l', Skip l l' → (∀ kw, ¬ CompoundStart l' kw) → Snd (f none) l' b Q) :
    Snd (nextCompoundCommandType >>= f) l b Q := by
  obtain ⟨l', hl⟩ := skip_total l
  by_cases h : ∃ kw, CompoundStart l' kw
  · obtain ⟨kw, h⟩ := h
    exact .after (compoundKw_run hl h) (h1 l' kw hl h)
  · have h' : ∀ kw, ¬ CompoundStart l' kw := fun kw hk => h ⟨kw, hk⟩
    exact .after (noCompound_run hl h') (h2 l' hl h')

theorem Snd.parens {β : Type} {l : List Token} {b : B.State} {f : Unit → P AIter B β}
    {Q : β → List Token → B.State → Prop} (h : ∀ r, Parens l r → Snd (f ()) r b Q) :
    Snd (parens >>= f) l b Q := by
  refine .bind ?_
  unfold Conch.parens
  refine .eat fun l1 hl => .skip fun l2 hs => .ret (.eat fun r hr => ?_)
  subst hl hr
  exact .pure (h r ⟨_, rfl, hs⟩)

theorem snd_fnStart (hR : SndRec R) (found : Bool) : Sound (.fnStart found) (functionBodyStart R found) := by
  intro l b
  unfold functionBodyStart
  refine .peek (.ite (fun h => ?_) fun h => .ite (fun h' => .pure ?_) fun h' => ?_)
  · exact .parens fun r hr => .pure (.fnParens hr)
  · simp only [Bool.and_eq_true, decide_eq_true_eq] at h'
    obtain ⟨rfl, h'⟩ := h'
    cases l with
    | nil => cases h'
    | cons t l => cases h'; exact .fnNewline
  · refine .bind ?_
    unfold eatWhitespace
    refine .peek (.ite (fun hw => ?_) fun _ => .unexpected)
    cases l with
    | nil => cases hw
    | cons t l =>
      cases t <;> try (cases hw; done)
      refine Snd.next (.pure (.skip fun l' hs => ?_))
      cases found with
      | false =>
        rw [if_pos (by simp)]
        exact .parens fun r hr => .pure (.fnWsParens hs hr)
      | true =>
        rw [if_neg (by simp)]
        refine .peek (.ite (fun hp => ?_) fun hp => .pure (.fnWs hs ?_))
        · refine .seq (snd_subshell hR true _ _) ?_
          rintro ⟨cs, ns⟩ r b' hg
          refine .ite (fun he => .pure ?_) fun he => .bind (.call fun c b'' hc => .pure (.fnSubshell hs hg ?_ hc))
          · simp only [Bool.and_eq_true, List.isEmpty_iff] at he
            obtain ⟨rfl, rfl⟩ := he
            exact .fnEmpty hs hg
          · rintro ⟨⟩
            exact he rfl
        · rintro r' rfl
          exact hp rfl

/-- What is read of a function. -/
def FnReads (b : B.State) (l : List Token) (y : Str × List Nl × B.CompoundCommand) (r : List Token)
    (b' : B.State) : Prop :=
  ∀ a b'', Calls (.functionDeclaration y.1 y.2.1 y.2.2) b' a b'' →
    Reads .function b l a r b''

theorem snd_functionInternal (hR : SndRec R) (l : List Token) (b : B.State) :
    Snd (functionDeclarationInternal R) l b (FnReads b l) := by
  have main : ∀ found l1, (found = true ∧ Kw FUNCTION l l1 ∨ found = false ∧ l1 = l ∧ ∀ r, ¬ Kw FUNCTION l r) →
      ∀ l1' l2 x, Skip l1 l1' → l1' = .Name x :: l2 → Snd (do
        match ← functionBodyStart R found with
        | some c => pure (x, [], c)
        | none =>
          let comments ← linebreak
          let c ← compoundCommand R
          pure (x, comments, c) : P AIter B (Str × List Nl × B.CompoundCommand)) l2 b (FnReads b l) := by
    rintro found l1 hf _ l2 x hs rfl
    refine .seq (snd_fnStart hR found _ _) ?_
    rintro (_ | c) l3 b1 h3
    · refine .linebreak fun ns l4 hn => .bind ?_
      unfold compoundCommand
      refine .compoundType (fun l' kw hs' hk => ?_) fun _ _ _ => .unexpected
      obtain rfl := hs'.of_noBlank hn.noBlank
      refine (snd_compound hR kw _ _).mono fun c r b2 hc => .pure ?_
      exact fun a b3 ha => .function hf hs h3 hn hk hc ha
    · refine .pure fun a b3 ha => ?_
      rcases hf with ⟨rfl, hf⟩ | ⟨rfl, _⟩
      · exact .functionSubshell hf hs h3 ha
      · cases h3
  unfold functionDeclarationInternal
  refine .bind (.peekWord (by simp) (fun l' w r hs hw hk => ?_) fun l' hs hn => ?_)
  · rw [if_pos (by simp)]
    simp only [List.mem_singleton] at hw
    subst hw
    obtain ⟨t, rfl⟩ := hk.cons
    refine Snd.next (.pure (.skip fun l1' hs' => .identifier fun x l2 hl => ?_))
    exact main true r (.inl ⟨rfl, _, hs, hk⟩) _ _ x hs' hl
  · rw [if_neg (by simp)]
    refine .pure (.skip fun l1' hs' => .identifier fun x l2 hl => ?_)
    obtain rfl := hs'.of_noBlank hs.noBlank
    refine main false l (.inr ⟨rfl, rfl, ?_⟩) _ _ x hs hl
    rintro r ⟨l3, hs3, hk⟩
    obtain rfl := hs3.unique hs
    exact hn _ (List.mem_singleton.2 rfl) _ hk

theorem snd_function (hR : SndRec R) : Sound .function (functionDeclaration R) := by
  intro l b
  unfold functionDeclaration
  exact .seq (snd_functionInternal hR _ _) fun y r b' h => .call fun a b'' ha => h a b'' ha

/-! ## Commands and lists -/

theorem snd_command (hR : SndRec R) : Sound .command (command R) := by
  intro l b
  unfold command
  refine .compoundType (fun l' kw hs hk => ?_) fun l' hs hn => ?_
  · refine .seq (snd_compound hR kw _ _) fun c r b' hc => .call fun a b'' ha => ?_
    exact .commandCompound hs hk hc ha
  · by_cases hf : FunctionStart l'
    · refine .bind ?_
      unfold maybeFunctionDeclaration
      have key : Snd (do let c ← functionDeclaration R; pure (some c) : P AIter B _) l' b
          fun a r b' => Snd (match a with | some c => pure c | none => simpleCommand R : P AIter B _) r b'
            fun a r b' => Reads (B := B) .command b l a r b' :=
        .seq (snd_function hR _ _) fun a r b' h => .pure (.pure (.commandFunction hs hn hf h))
      refine .peekWord (by simp) (fun l2 w r hs2 hw hk => ?_) fun l2 hs2 hn2 => ?_
      · obtain rfl := hs2.of_noBlank hs.noBlank
        exact key
      · obtain rfl := hs2.of_noBlank hs.noBlank
        refine .lookahead mpFunction_it fun it => .ite (fun _ => key) fun h => ?_
        exfalso
        rw [mpFunction_val'] at h
        cases hf with
        | keyword hk => exact hn2 _ (List.mem_singleton.2 rfl) _ hk
        | paren => exact h (.inl ⟨_, _, rfl⟩)
        | wsParen => exact h (.inr ⟨_, _, _, rfl⟩)
    · exact .after (maybeFunction_none hs.noBlank hf)
        ((snd_simple hR _ _).mono fun a r b' h => .commandSimple hs hn hf h)

theorem snd_pipelineCmds (hR : SndRec R) : Sound .pipelineCmds (loop (pipelineBody R) []) := by
  intro l b
  refine (Snd.collect (fun b l y r b' => Reads (B := B) .pipelineCmds b l y r b') ?_).mono ?_
  · intro x l b
    unfold pipelineBody
    refine .peek (.ite (fun _ => .unexpected) fun h => .seq (snd_command hR _ _) fun c r b' hc => ?_)
    have hl : ∀ l', l ≠ .Bang :: l' := by rintro l' rfl; exact h rfl
    refine .eatMaybe (fun r' hr => .linebreak fun ns l2 hn => .pure ?_) fun hr => .pure ?_
    · subst hr
      exact ⟨[(ns, c)], rfl, fun z r' b3 hz => .pipeCons hl hc hn hz⟩
    · exact ⟨_, rfl, .pipeLast hl hc hr⟩
  · rintro a r b' ⟨y, rfl, h⟩
    exact h

theorem snd_pipeline (hR : SndRec R) : Sound .pipeline (pipeline R) := by
  intro l b
  unfold pipeline
  refine .skip fun l1 hs => .eatMaybe (fun l2 h => ?_) fun h => ?_
  · refine .seq (snd_pipelineCmds hR _ _) fun cs r b' hc => .call fun a b'' ha => ?_
    exact .pipeline hs (.inl ⟨rfl, h⟩) hc ha
  · refine .seq (snd_pipelineCmds hR _ _) fun cs r b' hc => .call fun a b'' ha => ?_
    exact .pipeline hs (.inr ⟨rfl, rfl, h⟩) hc ha

theorem snd_andOrRest (hR : SndRec R) : Sound .andOrRest (loop (andOrBody R) []) := by
  intro l b
  refine (Snd.collect (fun b l y r b' => Reads (B := B) .andOrRest b l y r b') ?_).mono ?_
  · intro x l b
    unfold andOrBody
    refine .skip fun l1 hs => .eatMaybe (fun r h => ?_) fun h => .eatMaybe (fun r h => ?_) fun h' => .pure ?_
    · subst h
      refine .linebreak fun ns l2 hn => .seq (snd_pipeline hR _ _) fun c r b' hc => .pure ?_
      exact ⟨[(ns, .And c)], rfl, fun z r' b3 hz => .andOrAnd hs hn hc hz⟩
    · subst h
      refine .linebreak fun ns l2 hn => .seq (snd_pipeline hR _ _) fun c r b' hc => .pure ?_
      exact ⟨[(ns, .Or c)], rfl, fun z r' b3 hz => .andOrOr hs hn hc hz⟩
    · exact ⟨[], by simp, .andOrEnd hs fun r' => ⟨h r', h' r'⟩⟩
  · rintro a r b' ⟨y, rfl, h⟩
    exact h

theorem snd_andOr (hR : SndRec R) : Sound .andOr (andOrList R) := by
  intro l b
  unfold andOrList
  refine .seq (snd_pipeline hR _ _) fun c l' b' h => .seq (snd_andOrRest hR _ _) fun cs r b'' h2 => ?_
  exact .call fun a b3 ha => .andOr h h2 ha

theorem sepAfter_total (l : List Token) : ∃ s c r, SepAfter l s c r := by
  by_cases h1 : ∃ l', l = .Semi :: l'
  · obtain ⟨l', rfl⟩ := h1
    obtain ⟨n, r, h⟩ := optLine_total l'
    exact ⟨_, _, _, .semi h⟩
  by_cases h2 : ∃ l', l = .Amp :: l'
  · obtain ⟨l', rfl⟩ := h2
    obtain ⟨n, r, h⟩ := optLine_total l'
    exact ⟨_, _, _, .amp h⟩
  have h : ∀ l', l ≠ .Semi :: l' ∧ l ≠ .Amp :: l' :=
    fun l' => ⟨fun h => h1 ⟨l', h⟩, fun h => h2 ⟨l', h⟩⟩
  rcases line_cases l with ⟨n, r, hl⟩ | ⟨r, hl, hn⟩
  · exact ⟨_, _, _, .newline hl h⟩
  · exact ⟨_, _, _, .other hl hn h⟩

theorem snd_complete (hR : SndRec R) (pre : List Nl) :
    Sound (.complete pre) (completeCommandWithComments R pre) := by
  intro l b
  unfold completeCommandWithComments
  refine .seq (snd_andOr hR _ _) fun c l' b' h => ?_
  obtain ⟨s, cm, r, hs⟩ := sepAfter_total l'
  refine .after (separator_run hs) ?_
  exact .call fun a b'' ha => .complete h hs ha

/-- What has been read of a group. -/
def GroupInv (cfg : Delims) (b0 : B.State) (l0 : List Token) (x : List B.Command)
    (l : List Token) (b : B.State) : Prop :=
  ∀ y ns r b', Reads (.group cfg) b l ⟨y, ns⟩ r b' → Reads (.group cfg) b0 l0 ⟨x ++ y, ns⟩ r b'

theorem snd_group (hR : SndRec R) (cfg : Delims) (hp : Delims.Proper cfg) :
    Sound (.group cfg) (commandGroupInternal R cfg) := by
  intro l b
  unfold commandGroupInternal
  refine .loop (GroupInv cfg b l) (fun y e r b' h => h) ?_
  intro x l' b' hI
  obtain ⟨ns, r, hl⟩ := lines_total l'
  by_cases hd : AtDelim cfg r ∨ r = []
  · refine .ofRun (group_end hp hl hd) ?_
    have := hI _ _ _ _ (.groupEnd hl hd)
    simpa [LStep] using this
  · rw [not_or] at hd
    have key : Snd (groupBody R cfg x) l' b' fun a r' b'' => ∃ c, a = .cont (x ++ [c]) ∧
        Reads (B := B) (.complete ns) b' r c r' b'' := by
      unfold groupBody
      obtain ⟨r', hs, hr'⟩ := hl.skipped
      obtain ⟨found, l0, h1, h2, h3, h4⟩ := foundDelim_run (b := b') hp hs
      have hf : found = false := by
        cases found with
        | false => rfl
        | true =>
          exfalso
          obtain ⟨rfl, h⟩ := h3 rfl
          obtain ⟨rfl, rfl⟩ := hr' (Delims.Proper.noLine hp h)
          exact hd.1 h
      subst hf
      refine .after h1 ?_
      rw [if_neg (by simp)]
      refine .after (Run.linebreak (hl.skip hs h2)) ?_
      obtain ⟨found, l1, k1, k2, k3, k4⟩ := foundDelim_run (b := b') hp (.refl hl.noBlank)
      obtain ⟨rfl, k5⟩ := k4 hl.noBlank
      have hf : found = false := by
        cases found with
        | false => rfl
        | true => exact absurd (k5.1 rfl) hd.1
      subst hf
      refine .bind (.after k1 ?_)
      rw [if_neg (by simp)]
      refine .peek (.pure ?_)
      rw [if_neg]
      · exact .seq (snd_complete hR ns _ _) fun c r b'' hc => .pure ⟨c, rfl, hc⟩
      · cases l1 with
        | nil => exact absurd rfl hd.2
        | cons _ _ => simp
    refine key.mono ?_
    rintro _ r' b'' ⟨c, rfl, hc⟩
    intro y ms r3 b3 hy
    rw [List.append_assoc]
    exact hI _ _ _ _ (.groupCons hl hd.1 hd.2 hc hy)

theorem snd_top (hR : SndRec R) : Sound .top (completeCommand R) := by
  intro l b
  unfold completeCommand
  refine .linebreak fun ns l' hl => .peek (.ite (fun h => ?_) fun h => ?_)
  · refine .seq (snd_complete hR ns _ _) fun c r b' hc => .pure (.topCommand hl ?_ hc)
    rintro rfl
    cases h
  · cases l' with
    | cons _ _ => exact absurd rfl h
    | nil =>
      refine .ite (fun h => .pure ?_) fun h => .bind (.call fun a b' ha => .pure ?_)
      · rw [List.isEmpty_iff] at h
        subst h
        exact .topNone hl
      · exact .topComments hl (by simpa using h) ha

/-- **Soundness of the grammar**: whatever the parser reads successfully, the grammar reads. -/
theorem sound_fix (n : Nat) : SndRec (Rec.fix n : Rec AIter B) := by
  induction n with
  | zero =>
    constructor
    · intro cfg hp l b
      rw [Rec.fix]
      exact .outOfFuel
    · intro l b
      rw [Rec.fix]
      exact .outOfFuel
  | succ n ih =>
    constructor
    · intro cfg hp l b
      rw [Rec.fix_succ]
      exact snd_group ih cfg hp l b
    · intro l b
      rw [Rec.fix_succ]
      exact snd_param ih l b

end
end Conch.Gram
