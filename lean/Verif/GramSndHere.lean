import Verif.GramSndWord
import Verif.GramHere
/-!
# Grammar soundness: here-documents
-/
namespace Conch.Gram
open Conch

section
variable {B : Builder} {R : Rec AIter B}

theorem topUnit_ne {u r : List Token} (h : Spec.TopUnit (anywhere u) (anywhere r)) (hne : u ++ r ≠ []) :
    u ≠ [] := by
  rintro rfl
  generalize hu : anywhere [] = u' at h
  generalize hr : anywhere r = r' at h
  cases h with
  | empty =>
    cases r with
    | nil => exact hne rfl
    | cons _ _ => cases hr
  | _ => cases hu

/-! ## The delimiter -/

theorem snd_delimTokens (l : List Token) (b : B.State) :
    Snd (loop delimTokensBody []) l b fun a r b' => DelimToks l a r ∧ b' = b := by
  refine (Snd.collect (fun b l y r b' => DelimToks l y r ∧ b' = b) ?_).mono ?_
  · intro x l b
    unfold delimTokensBody
    refine .peek ?_
    cases l with
    | nil => exact .pure ⟨[], by simp, .nil (by simp), rfl⟩
    | cons t l =>
      refine Snd.ite (fun h => .pure ⟨[], by simp, .nil ?_, rfl⟩) fun h => ?_
      · rintro t r' ⟨⟩
        simpa using h
      · refine .balanced fun u r hl hu => .pure ⟨u, rfl, ?_⟩
        rintro z r' _ ⟨h1, rfl⟩
        refine ⟨?_, rfl⟩
        rw [hl]
        refine .cons (topUnit_ne hu (by rw [← hl]; simp)) ?_ hu h1
        rintro t' u' rfl
        cases hl
        simp only [Bool.and_eq_true, decide_eq_true_eq, not_and_or, Bool.not_eq_true, not_not] at h
        exact h
  · rintro a r b' ⟨y, rfl, h⟩
    simpa using h

/-- What has been read of the delimiter. -/
def DelimInv (u : List Token) (b0 : B.State) (x : Bool × Str) (l : List Token) (b : B.State) : Prop :=
  b = b0 ∧ ∀ q s, DelimText l q s → DelimText u (x.1 || q) (x.2 ++ s)

theorem DelimInv.quoted {u : List Token} {b0 b : B.State} {x : Bool × Str} {l l' : List Token} {s : Str}
    (h : DelimInv u b0 x l b) (hs : ∀ q s', DelimText l' q s' → DelimText l true (s ++ s')) :
    DelimInv u b0 (true, x.2 ++ s) l' b := by
  refine ⟨h.1, fun q s' h' => ?_⟩
  have := h.2 _ _ (hs _ _ h')
  simpa using this

theorem snd_delim (u : List Token) (b : B.State) :
    Snd (loop delimBody (false, [])) u b fun a _ b' => DelimText u a.1 a.2 ∧ b' = b := by
  refine .loop (DelimInv u b) ⟨rfl, fun q s h => by simpa using h⟩ ?_
  intro x l b' hI
  unfold delimBody
  refine .getPos fun p => ?_
  cases l with
  | nil =>
    refine .nextNil (.pure ⟨?_, hI.1⟩)
    simpa using hI.2 _ _ .nil
  | cons t l =>
    have hplain : t ∉ [Token.Backslash, .SingleQuote, .DoubleQuote, .Backtick] →
        Snd (pure (Step.cont (x.1, x.2 ++ t.asStr)) : P AIter B (Step (Bool × Str) (Bool × Str))) l b'
        (LStep (DelimInv u b) fun a _ b' => DelimText u a.1 a.2 ∧ b' = b) := by
      intro ht
      refine .pure ⟨hI.1, fun q s h' => ?_⟩
      have := hI.2 _ _ (.plain ht h')
      simpa using this
    refine Snd.next ?_
    cases t
    case Backslash =>
      dsimp only
      cases l with
      | nil =>
        refine .nextNil (.pure ?_)
        have := hI.quoted (l' := []) (s := []) fun q s h => by
          cases h; exact .lastBackslash
        simpa [LStep] using this
      | cons t l => exact Snd.next (.pure (hI.quoted fun q s h => .escaped h))
    case SingleQuote =>
      refine .singleQuoted fun v r hl hv => .pure (hI.quoted fun q s h => ?_)
      rw [hl]
      exact .single hv h
    case DoubleQuote =>
      refine .dqDelim fun v r hl hv => .pure (hI.quoted fun q s h => ?_)
      rw [hl]
      exact .double hv h
    case Backtick =>
      refine .backtickRemoved fun v r hl hv => .pure ?_
      have := hI.quoted (l' := r) (s := concatTokens (.Backtick :: unescape v ++ [.Backtick]))
        fun q s h => by rw [hl]; exact .backtick hv h
      simpa [LStep, concatTokens] using this
    all_goals exact hplain (by simp)

theorem snd_heredocDelim (l : List Token) (b : B.State) :
    Snd (heredocDelim) l b fun a r b' => ∃ u, DelimToks l u r ∧ DelimText u a.1 a.2 ∧ a.2 ≠ [] ∧ b' = b := by
  unfold Conch.heredocDelim
  refine .bind ((snd_delimTokens l b).mono ?_)
  rintro u r _ ⟨hu, rfl⟩
  refine .bind (.withIterRestore (ofTokens_toks u) ((snd_delim u _).mono ?_))
  rintro a _ _ ⟨ha, rfl⟩
  refine .ite (fun _ => .unexpected) fun h => .pure ⟨u, hu, ha, by simpa using h, rfl⟩

/-! ## The rest of the line and the lines of the body -/

theorem snd_saveLine (l : List Token) (b : B.State) :
    Snd (loop saveLineBody []) l b fun a r b' => RestOfLine l a r ∧ b' = b := by
  refine (Snd.collect (fun b l y r b' => RestOfLine l y r ∧ b' = b) ?_).mono ?_
  · intro x l b
    unfold saveLineBody
    refine .peek ?_
    cases l with
    | nil => exact .pure ⟨[], by simp, .eof, rfl⟩
    | cons t l =>
      have h : t ≠ .Newline → Snd (do let ts ← scan takeBalanced; pure (.cont (x ++ ts)) :
          P AIter B (Step (List Token) (List Token))) (t :: l) b
          (CStep (fun b l y r b' => RestOfLine l y r ∧ b' = b) x (t :: l) b) := by
        intro ht
        refine .balanced fun u r hl hu => .pure ⟨u, rfl, ?_⟩
        rintro z r' _ ⟨h1, rfl⟩
        refine ⟨?_, rfl⟩
        rw [hl]
        refine .cons (topUnit_ne hu (by rw [← hl]; simp)) ?_ hu h1
        rintro u' rfl
        cases hl
        exact ht rfl
      cases t
      case Newline => exact Snd.next (.pure ⟨_, rfl, .newline, rfl⟩)
      all_goals exact h (by simp)
  · rintro a r b' ⟨y, rfl, h⟩
    simpa using h

theorem chunk_cases (l : List Token) :
    (∃ c r, (∀ t ∈ c, t ≠ .Newline) ∧ l = c ++ .Newline :: r) ∨ ∀ t ∈ l, t ≠ .Newline := by
  induction l with
  | nil => right; simp
  | cons t l ih =>
    by_cases ht : t = .Newline
    · exact .inl ⟨[], l, by simp, by rw [ht]; rfl⟩
    · rcases ih with ⟨c, r, hc, rfl⟩ | h
      · exact .inl ⟨t :: c, r, by simpa [ht] using hc, rfl⟩
      · exact .inr (by simpa [ht] using h)

theorem hereLines_total (strip : Bool) (delim : Str) (l : List Token) :
    ∃ body r, HereLines strip delim l body r := by
  obtain ⟨n, hn⟩ : ∃ n, l.length = n := ⟨_, rfl⟩
  induction n using Nat.strongRecOn generalizing l with | _ n ih =>
  rcases chunk_cases l with ⟨c, r, hc, rfl⟩ | h
  · by_cases hd : IsDelim delim (lineOf strip c)
    · exact ⟨_, _, .delim hc hd⟩
    · obtain ⟨body, r', h⟩ := ih r.length (by rw [← hn]; simp; omega) r rfl
      exact ⟨_, _, .line hc hd h⟩
  · by_cases hd : IsDelim delim (lineOf strip l)
    · exact ⟨_, _, .lastDelim h hd⟩
    · exact ⟨_, _, .lastLine h hd⟩

theorem Snd.hereLines {β : Type} {strip : Bool} {delim : Str} (hd : delim ≠ []) {l : List Token}
    {b : B.State} {f : List (List Token × SourcePos) → P AIter B β}
    {Q : β → List Token → B.State → Prop}
    (h : ∀ lines r, HereLines strip delim l (lines.flatMap (·.1)) r → Snd (f lines) r b Q) :
    Snd (Conch.loop (heredocBody strip delim) [] >>= f) l b Q := by
  obtain ⟨body, r, hh⟩ := hereLines_total strip delim l
  intro L e hL a s' heq
  obtain ⟨lines, R, hR, h1, h2⟩ := here_run hh hd b e L hL []
  rw [bind_ok h1.loop] at heq
  simp only [List.flatMap_nil, List.nil_append] at h2
  exact h lines r (h2 ▸ hh) R e hR a s' heq

theorem Snd.bufferFirst {β : Type} {ts l : List Token} {p : SourcePos} {b : B.State} {f : Unit → P AIter B β}
    {Q : β → List Token → B.State → Prop} (h : Snd (f ()) (ts ++ l) b Q) :
    Snd (Conch.bufferFirst ts p >>= f) l b Q := .after Run.bufferFirst h

theorem Reads.interp_eof' {n : NT} {b : B.State} {l a r b'} (h : Reads n b l a r b') :
    n = .interpParts none → r = [] := by
  induction h with
  | interpEof => intro _; rfl
  | interpParam _ _ _ _ ih => intro hn; cases hn; exact ih rfl
  | interpBacktick _ _ _ _ ih => intro hn; cases hn; exact ih rfl
  | interpEscaped _ _ _ ih => intro hn; cases hn; exact ih rfl
  | interpBackslash _ _ _ _ ih => intro hn; cases hn; exact ih rfl
  | interpText _ _ _ _ ih => intro hn; cases hn; exact ih rfl
  | _ => intro hn; cases hn

theorem Reads.interp_eof {b : B.State} {l a r b'} (h : Reads (.interp none) b l a r b') :
    r = [] := by
  cases h with
  | interp h => exact h.interp_eof' rfl

theorem snd_heredoc (hR : SndRec R) (fd : Option Nat) : Sound (.heredoc fd) (redirectHeredoc R fd) := by
  intro l b
  have main : ∀ (strip : Bool) (t : Token) (l' : List Token), strip = decide (t = .DLessDash) →
      l = t :: l' → (t = .DLess ∨ t = .DLessDash) →
      Snd (do
        skipWhitespace
        let (quoted, delim) ← heredocDelim
        let savedPos ← getPos
        let saved ← loop saveLineBody []
        let start ← getPos
        let lines ← loop (heredocBody strip delim) []
        bufferFirst saved savedPos
        let body ← hereBody R quoted start lines
        let w ← call (.word body)
        call (.redirect (.Heredoc fd w)) : P AIter B B.Redirect) l' b
        fun a r b' => Reads (B := B) (.heredoc fd) b l a r b' := by
    intro strip t l' hs hl ht
    subst hl hs
    refine .skip fun l1 h1 => .bind ((snd_heredocDelim l1 b).mono ?_)
    rintro ⟨q, delim⟩ l2 _ ⟨u, hu, hx, hne, rfl⟩
    refine .getPos fun savedPos => .bind ((snd_saveLine l2 _).mono ?_)
    rintro saved l3 _ ⟨hr, rfl⟩
    refine .getPos fun start => .hereLines hne fun lines r hh => .bufferFirst ?_
    cases q with
    | true =>
      refine .bind (.pure (.bind (.call fun w b1 hw => .call fun a b2 ha => ?_)))
      exact .heredocQuoted ht h1 hu hx hne hr hh hw ha
    | false =>
      refine .bind (.bind (.withIter (chunk_toks lines start) ((snd_interp hR none start _ _).mono ?_)))
      intro ps r' b1 hps
      obtain rfl := hps.interp_eof
      refine .pure (.bind (.call fun w b2 hw => .call fun a b3 ha => ?_))
      rw [heredocWord_eq] at hw
      exact .heredoc ht h1 hu hx hne hr hh hps hw ha
  unfold redirectHeredoc
  refine .bind ?_
  refine .eatMaybe (fun r hr => .pure ?_) fun _ => .eatMaybe (fun r hr => .pure ?_) fun _ => .unexpected
  · exact main false _ _ rfl hr (.inl rfl)
  · exact main true _ _ rfl hr (.inr rfl)

end
end Conch.Gram
