import Verif.LexSpec
/-!
# Proofs about the lexer
-/
namespace Conch
open Spec

theorem nextIs_true {c : Char} {cs : Str} (h : (nextIs c cs).1 = true) :
    cs = c :: (nextIs c cs).2 := by
  cases cs with
  | nil => simp [nextIs] at h
  | cons d ds =>
    by_cases hd : d = c <;> simp_all [nextIs]

theorem nextIs_false {c : Char} {cs : Str} (h : (nextIs c cs).1 = false) :
    (nextIs c cs).2 = cs ∧ ∀ l, cs ≠ c :: l := by
  cases cs with
  | nil => simp [nextIs]
  | cons d ds =>
    by_cases hd : d = c <;> simp_all [nextIs]

/-- The operators that start with `c`. -/
def opsFrom (c : Char) : List (Str × Token) := operators.filter (fun p => p.1.head? == some c)

theorem longest_of {c : Char} {cs o : Str} {t : Token} {l : List (Str × Token)}
    (hl : opsFrom c = l) (hmem : (o, t) ∈ l) (hp : o <+: c :: cs)
    (hmax : ∀ p ∈ l, p.1 <+: c :: cs → p.1.length ≤ o.length) : LongestOp (c :: cs) o t := by
  subst hl
  refine ⟨(List.mem_filter.1 hmem).1, hp, fun p hp' hpre => ?_⟩
  apply hmax p _ hpre
  refine List.mem_filter.2 ⟨hp', ?_⟩
  rcases hq : p.1 with _ | ⟨d, ds⟩
  · have : ∀ q ∈ operators, q.1 ≠ [] := by decide
    exact absurd hq (this p hp')
  · rw [hq] at hpre
    have := (List.cons_prefix_cons.1 hpre).1
    simp [this]

theorem opStart_iff {c : Char} : opStart c ↔
    c ∈ ['\n', '!', '~', '#', '*', '?', '%', '-', '=', '+', ':', '@', '^', '/', ',',
      '\'', '"', '`', '(', ')', '{', '}', '[', ']'] ∨ c ∈ [';', '&', '|', '<', '>', '$'] := by
  constructor
  · intro ⟨p, hp, hc⟩
    have : ∀ q ∈ operators, ∀ d ∈ q.1.head?, d ∈ ['\n', '!', '~', '#', '*', '?', '%', '-', '=', '+',
      ':', '@', '^', '/', ',', '\'', '"', '`', '(', ')', '{', '}', '[', ']'] ∨
      d ∈ [';', '&', '|', '<', '>', '$'] := by decide
    exact this p hp c hc
  · intro h
    have : ∀ d, d ∈ (['\n', '!', '~', '#', '*', '?', '%', '-', '=', '+',
      ':', '@', '^', '/', ',', '\'', '"', '`', '(', ')', '{', '}', '[', ']'] ++
      [';', '&', '|', '<', '>', '$'] : List Char) → ∃ p ∈ operators, p.1.head? = some d := by decide
    exact this c (List.mem_append.2 h)

/-- What `lexOne` does, case by case. -/
theorem lexOne_spec (cc : CharClass) (c : Char) (cs : Str) (hc : c ≠ '\\') :
    (∃ o t, (lexOne cc c cs) = (.Tok t, (c :: cs).drop o.length) ∧ LongestOp (c :: cs) o t) ∨
    (¬ opStart c ∧ cc.whitespace c = true ∧
      lexOne cc c cs = (.Tok (.Whitespace (c :: (takeBlank cc cs).1)), (takeBlank cc cs).2)) ∨
    (Plain cc c ∧ lexOne cc c cs = (.Lit c, cs)) := by
  have single : ∀ (c : Char) (t : Token), LongestOp (c :: cs) [c] t →
      lexOne cc c cs = (.Tok t, cs) →
      ∃ o t, (lexOne cc c cs) = (.Tok t, (c :: cs).drop o.length) ∧ LongestOp (c :: cs) o t :=
    fun c t h h' => ⟨[c], t, by simpa using h', h⟩
  by_cases h : c ∈ ['\n', '!', '~', '#', '*', '?', '%', '-', '=', '+', ':', '@', '^', '/', ',',
      '\'', '"', '`', '(', ')', '{', '}', '[', ']']
  · simp only [List.mem_cons, List.not_mem_nil, or_false] at h
    rcases h with rfl | rfl | rfl | rfl | rfl | rfl | rfl | rfl | rfl | rfl | rfl | rfl | rfl | rfl
      | rfl | rfl | rfl | rfl | rfl | rfl | rfl | rfl | rfl | rfl <;>
    exact Or.inl (single _ _ (longest_of (l := [(_, _)]) rfl (by simp) (by simp) (by simp)) rfl)
  by_cases h2 : c ∈ [';', '&', '|', '<', '>', '$']
  · left
    simp only [List.mem_cons, List.not_mem_nil, or_false] at h2
    rcases h2 with rfl | rfl | rfl | rfl | rfl | rfl
    · have ops : opsFrom ';' = [([';'], .Semi), ([';', ';'], .DSemi)] := rfl
      cases cs with
      | nil => exact ⟨[';'], .Semi, rfl, longest_of ops (by simp) (by simp) (by simp)⟩
      | cons d ds =>
        by_cases hd : d = ';'
        · subst hd; exact ⟨[';', ';'], .DSemi, rfl, longest_of ops (by simp) (by simp) (by simp)⟩
        · exact ⟨[';'], .Semi, by simp [lexOne, nextIs, hd],
            longest_of ops (by simp) (by simp) (by simp [Ne.symm hd])⟩
    · have ops : opsFrom '&' = [(['&'], .Amp), (['&', '&'], .AndIf)] := rfl
      cases cs with
      | nil => exact ⟨['&'], .Amp, rfl, longest_of ops (by simp) (by simp) (by simp)⟩
      | cons d ds =>
        by_cases hd : d = '&'
        · subst hd; exact ⟨['&', '&'], .AndIf, rfl, longest_of ops (by simp) (by simp) (by simp)⟩
        · exact ⟨['&'], .Amp, by simp [lexOne, nextIs, hd],
            longest_of ops (by simp) (by simp) (by simp [Ne.symm hd])⟩
    · have ops : opsFrom '|' = [(['|'], .Pipe), (['|', '|'], .OrIf)] := rfl
      cases cs with
      | nil => exact ⟨['|'], .Pipe, rfl, longest_of ops (by simp) (by simp) (by simp)⟩
      | cons d ds =>
        by_cases hd : d = '|'
        · subst hd; exact ⟨['|', '|'], .OrIf, rfl, longest_of ops (by simp) (by simp) (by simp)⟩
        · exact ⟨['|'], .Pipe, by simp [lexOne, nextIs, hd],
            longest_of ops (by simp) (by simp) (by simp [Ne.symm hd])⟩
    · have ops : opsFrom '<' = [(['<'], .Less), (['<', '<'], .DLess), (['<', '<', '-'], .DLessDash), (['<', '&'], .LessAnd), (['<', '>'], .LessGreat)] := rfl
      cases cs with
      | nil => exact ⟨['<'], .Less, rfl, longest_of ops (by simp) (by simp) (by simp)⟩
      | cons d ds =>
        by_cases hd : d = '<'
        · subst hd
          cases ds with
          | nil => exact ⟨['<', '<'], .DLess, rfl, longest_of ops (by simp) (by simp) (by simp)⟩
          | cons e es =>
            by_cases he : e = '-'
            · subst he; exact ⟨['<', '<', '-'], .DLessDash, rfl, longest_of ops (by simp) (by simp) (by simp)⟩
            · exact ⟨['<', '<'], .DLess, by simp [lexOne, nextIs, he],
                longest_of ops (by simp) (by simp) (by simp [Ne.symm he])⟩
        · by_cases hd2 : d = '&'
          · subst hd2; exact ⟨['<', '&'], .LessAnd, rfl, longest_of ops (by simp) (by simp) (by simp)⟩
          · by_cases hd3 : d = '>'
            · subst hd3; exact ⟨['<', '>'], .LessGreat, rfl, longest_of ops (by simp) (by simp) (by simp)⟩
            · exact ⟨['<'], .Less, by simp [lexOne, nextIs, hd, hd2, hd3],
                longest_of ops (by simp) (by simp) (by simp [Ne.symm hd, Ne.symm hd2, Ne.symm hd3])⟩
    · have ops : opsFrom '>' = [(['>'], .Great), (['>', '>'], .DGreat), (['>', '&'], .GreatAnd), (['>', '|'], .Clobber)] := rfl
      cases cs with
      | nil => exact ⟨['>'], .Great, rfl, longest_of ops (by simp) (by simp) (by simp)⟩
      | cons d ds =>
        by_cases hd : d = '&'
        · subst hd; exact ⟨['>', '&'], .GreatAnd, rfl, longest_of ops (by simp) (by simp) (by simp)⟩
        · by_cases hd2 : d = '>'
          · subst hd2; exact ⟨['>', '>'], .DGreat, rfl, longest_of ops (by simp) (by simp) (by simp)⟩
          · by_cases hd3 : d = '|'
            · subst hd3; exact ⟨['>', '|'], .Clobber, rfl, longest_of ops (by simp) (by simp) (by simp)⟩
            · exact ⟨['>'], .Great, by simp [lexOne, nextIs, hd, hd2, hd3],
                longest_of ops (by simp) (by simp) (by simp [Ne.symm hd, Ne.symm hd2, Ne.symm hd3])⟩
    · have ops : opsFrom '$' = [(['$'], .Dollar), (['$', '0'], .ParamPositional .Zero), (['$', '1'], .ParamPositional .One), (['$', '2'], .ParamPositional .Two), (['$', '3'], .ParamPositional .Three), (['$', '4'], .ParamPositional .Four), (['$', '5'], .ParamPositional .Five), (['$', '6'], .ParamPositional .Six), (['$', '7'], .ParamPositional .Seven), (['$', '8'], .ParamPositional .Eight), (['$', '9'], .ParamPositional .Nine)] := rfl
      cases cs with
      | nil => exact ⟨['$'], .Dollar, rfl, longest_of ops (by simp) (by simp) (by simp)⟩
      | cons d ds =>
        by_cases hd : d ∈ ['0', '1', '2', '3', '4', '5', '6', '7', '8', '9']
        · simp only [List.mem_cons, List.not_mem_nil, or_false] at hd
          rcases hd with rfl | rfl | rfl | rfl | rfl | rfl | rfl | rfl | rfl | rfl
          · exact ⟨['$', '0'], .ParamPositional .Zero, rfl, longest_of ops (by simp) (by simp) (by simp)⟩
          · exact ⟨['$', '1'], .ParamPositional .One, rfl, longest_of ops (by simp) (by simp) (by simp)⟩
          · exact ⟨['$', '2'], .ParamPositional .Two, rfl, longest_of ops (by simp) (by simp) (by simp)⟩
          · exact ⟨['$', '3'], .ParamPositional .Three, rfl, longest_of ops (by simp) (by simp) (by simp)⟩
          · exact ⟨['$', '4'], .ParamPositional .Four, rfl, longest_of ops (by simp) (by simp) (by simp)⟩
          · exact ⟨['$', '5'], .ParamPositional .Five, rfl, longest_of ops (by simp) (by simp) (by simp)⟩
          · exact ⟨['$', '6'], .ParamPositional .Six, rfl, longest_of ops (by simp) (by simp) (by simp)⟩
          · exact ⟨['$', '7'], .ParamPositional .Seven, rfl, longest_of ops (by simp) (by simp) (by simp)⟩
          · exact ⟨['$', '8'], .ParamPositional .Eight, rfl, longest_of ops (by simp) (by simp) (by simp)⟩
          · exact ⟨['$', '9'], .ParamPositional .Nine, rfl, longest_of ops (by simp) (by simp) (by simp)⟩
        · simp only [List.mem_cons, List.not_mem_nil, or_false, not_or] at hd
          obtain ⟨h0, h1, h2, h3, h4, h5, h6, h7, h8, h9⟩ := hd
          refine ⟨['$'], .Dollar, ?_, ?_⟩
          · have : positionalOfChar d = none := by
              unfold positionalOfChar
              split <;> first | rfl | contradiction
            simp [lexOne, this]
          · exact longest_of ops (by simp) (by simp) (by simp [Ne.symm h0, Ne.symm h1, Ne.symm h2, Ne.symm h3,
              Ne.symm h4, Ne.symm h5, Ne.symm h6, Ne.symm h7, Ne.symm h8, Ne.symm h9])
  · right
    have hop : ¬ opStart c := by
      rw [opStart_iff]
      exact fun h' => h'.elim h h2
    simp only [List.mem_cons, List.not_mem_nil, or_false, not_or] at h h2
    by_cases hw : cc.whitespace c = true
    · left
      refine ⟨hop, hw, ?_⟩
      clear single hop
      unfold lexOne
      split <;> first | (exfalso; revert h; decide) | (exfalso; revert h2; decide) | simp [hw]
    · right
      simp only [Bool.not_eq_true] at hw
      refine ⟨⟨hc, hop, hw⟩, ?_⟩
      clear single hop
      unfold lexOne
      split <;> first | (exfalso; revert h; decide) | (exfalso; revert h2; decide) | simp [hw]


theorem takeBlank_append (cc : CharClass) (cs : Str) :
    (takeBlank cc cs).1 ++ (takeBlank cc cs).2 = cs := by
  induction cs with
  | nil => rfl
  | cons c cs ih =>
    unfold takeBlank
    split <;> simp_all

theorem takeBlank_maximal (cc : CharClass) (cs : Str) :
    MaximalRun (Blank cc) (takeBlank cc cs).1 (takeBlank cc cs).2 := by
  induction cs with
  | nil => simp [takeBlank, MaximalRun]
  | cons c cs ih =>
    unfold takeBlank
    split
    · rename_i h
      obtain ⟨ih1, ih2⟩ := ih
      refine ⟨?_, ih2⟩
      intro d hd
      simp at hd
      rcases hd with rfl | hd
      · simpa [Blank] using h
      · exact ih1 d hd
    · rename_i h
      refine ⟨by simp, ?_⟩
      simp only [List.head?_cons, Option.some.injEq]
      rintro d rfl hd
      exact h (by simpa [Blank] using hd)

/-- `lexSingle` is the specified token of a single character. -/
theorem lexSingle_spec (cc : CharClass) (c : Char) : Single cc c (lexSingle cc c) := by
  unfold lexSingle
  split
  · rename_i h; subst h; exact .backslash
  · rename_i h
    rcases lexOne_spec cc c [] h with ⟨o, t, h1, h2, h3, h4⟩ | ⟨h1, h2, h3⟩ | ⟨h1, h2⟩
    · rw [h1]
      have : o = [c] := by
        have hne : o ≠ [] := by
          rintro rfl
          revert h2; revert t
          have : ∀ q ∈ operators, q.1 ≠ [] := by decide
          intro t _ h2
          exact this _ h2 rfl
        obtain ⟨d, ds, rfl⟩ := List.exists_cons_of_ne_nil hne
        obtain ⟨rfl, hpre⟩ := List.cons_prefix_cons.1 h3
        rw [List.prefix_nil.1 hpre]
      subst this
      exact .op h2
    · rw [h3]; exact .blank h h1 h2
    · rw [h2]
      dsimp only
      split
      · exact .name h1 ‹_›
      · exact .literal h1 (by simpa using ‹¬ cc.nameStart c = true›)

theorem takeWhile_dropWhile_maximal (f : Char → Bool) (cs : Str) :
    MaximalRun (fun c => f c = true) (cs.takeWhile f) (cs.dropWhile f) := by
  refine ⟨fun c hc => ?_, fun c hc => ?_⟩
  · exact List.all_eq_true.1 (List.all_takeWhile) c hc
  · induction cs with
    | nil => simp at hc
    | cons d ds ih =>
      rw [List.dropWhile_cons] at hc
      split at hc
      · exact ih hc
      · simp at hc; subst hc; assumption

/-! ## The tokens a lexer state still stands for -/

/-- What the lexer state `l` will yield. -/
inductive Rem (cc : CharClass) : Lexer → List Token → Prop
  | none {s ts} : Lexes cc s ts → Rem cc ⟨s, none⟩ ts
  | tok {s t ts} : Lexes cc s ts → Rem cc ⟨s, some (.Tok t)⟩ (t :: ts)
  | escNone : Rem cc ⟨[], some (.Escaped none)⟩ [.Backslash]
  | esc {s t ts} : Lexes cc s ts → Rem cc ⟨s, some (.Escaped (some t))⟩ (.Backslash :: t :: ts)
  | lit {s c ts} : Plain cc c → Lexes cc (c :: s) ts → Rem cc ⟨s, some (.Lit c)⟩ ts

/-- States the lexer can be in. -/
inductive Reach (cc : CharClass) : Lexer → Prop
  | none {s} : Reach cc ⟨s, none⟩
  | tok {s t} : Reach cc ⟨s, some (.Tok t)⟩
  | escNone : Reach cc ⟨[], some (.Escaped none)⟩
  | esc {s t} : Reach cc ⟨s, some (.Escaped (some t))⟩
  | lit {s c} : Plain cc c → Reach cc ⟨s, some (.Lit c)⟩

/-- A bound on the tokens still to come. -/
def Lexer.size (l : Lexer) : Nat :=
  l.inner.length + match l.peeked with
    | none => 0
    | some (.Tok _) => 1
    | some (.Escaped none) => 1
    | some (.Escaped (some _)) => 2
    | some (.Lit _) => 1

theorem longestOp_ne {s o : Str} {t : Token} (h : LongestOp s o t) : o ≠ [] := by
  have : ∀ q ∈ operators, q.1 ≠ [] := by decide
  exact this _ h.1

theorem longestOp_split {s o : Str} {t : Token} (h : LongestOp s o t) :
    s = o ++ s.drop o.length := by
  obtain ⟨r, rfl⟩ := h.2.1
  simp

/-- One call of `next_internal`. `Rem` after putting its result back. -/
theorem nextInternal_spec (cc : CharClass) (l : Lexer) (hl : Reach cc l) :
    match l.nextInternal cc with
    | (none, l') => l = ⟨[], none⟩ ∧ l' = l
    | (some x, l') => l'.peeked = none ∧ Reach cc { l' with peeked := some x } ∧
        Lexer.size { l' with peeked := some x } ≤ l.size ∧
        ∀ ts, Rem cc { l' with peeked := some x } ts → Rem cc l ts := by
  unfold Lexer.nextInternal
  obtain ⟨s, p⟩ := l
  cases p with
  | some x => exact ⟨rfl, hl, Nat.le_refl _, fun ts h => h⟩
  | none =>
    simp only
    split
    · rename_i h
      split at h <;> cases h
      exact ⟨rfl, rfl⟩
    · rename_i x l' h
      split at h
      · cases h
      · cases h
        refine ⟨rfl, .escNone, by simp [Lexer.size], fun ts h => ?_⟩
        cases h
        exact .none .trailingBackslash
      · cases h
        refine ⟨rfl, .esc, by simp [Lexer.size], fun ts h => ?_⟩
        cases h
        exact .none (.escape (lexSingle_spec cc _) ‹_›)
      · rename_i c cs h1 h2
        have hc : c ≠ '\\' := by
          rintro rfl
          cases cs with
          | nil => exact h1 rfl rfl
          | cons d ds => exact h2 d ds rfl rfl
        rcases lexOne_spec cc c cs hc with ⟨o, t, e, hop⟩ | ⟨ho, hw, e⟩ | ⟨hp, e⟩
        · rw [e] at h
          simp only [Prod.mk.injEq, Option.some.injEq] at h
          obtain ⟨rfl, rfl⟩ := h
          refine ⟨rfl, .tok, ?_, fun ts h => ?_⟩
          · have := longestOp_ne hop
            have h2 : o.length ≠ 0 := by simpa using this
            simp [Lexer.size]; omega
          · generalize hs : (c :: cs).drop o.length = s' at h
            cases h
            subst hs
            refine .none ?_
            have h3 := longestOp_split hop
            rw [h3] at hop ⊢
            exact .op hop ‹_›
        · rw [e] at h
          simp only [Prod.mk.injEq, Option.some.injEq] at h
          obtain ⟨rfl, rfl⟩ := h
          refine ⟨rfl, .tok, ?_, fun ts h => ?_⟩
          · have := congrArg List.length (takeBlank_append cc cs)
            simp at this
            simp [Lexer.size]; omega
          · generalize hs : (takeBlank cc cs).2 = s' at h
            cases h
            subst hs
            refine .none ?_
            have := Lexes.blank hc ho hw (takeBlank_maximal cc cs) ‹_›
            simpa [takeBlank_append] using this
        · rw [e] at h
          simp only [Prod.mk.injEq, Option.some.injEq] at h
          obtain ⟨rfl, rfl⟩ := h
          refine ⟨rfl, .lit hp, by simp [Lexer.size], fun ts h => ?_⟩
          cases h
          exact .none ‹_›


theorem nextInternal_plain (cc : CharClass) (c : Char) (cs : Str) (h : Plain cc c) :
    Lexer.nextInternal cc ⟨c :: cs, none⟩ = (some (.Lit c), ⟨cs, none⟩) := by
  unfold Lexer.nextInternal
  simp only
  split
  · simp_all
  · rename_i h'; simp at h'; exact absurd h'.1 h.1
  · rename_i h'; simp at h'; exact absurd h'.1 h.1
  · rename_i h'
    simp at h'
    obtain ⟨rfl, rfl⟩ := h'
    rcases lexOne_spec cc c cs h.1 with ⟨o, t, e, hop⟩ | ⟨ho, hw, e⟩ | ⟨hp, e⟩
    · exfalso
      apply h.2.1
      have := longestOp_ne hop
      obtain ⟨d, ds, rfl⟩ := List.exists_cons_of_ne_nil this
      obtain ⟨rfl, _⟩ := List.cons_prefix_cons.1 hop.2.1
      exact ⟨_, hop.1, rfl⟩
    · rw [h.2.2] at hw; cases hw
    · rw [e]

theorem nextInternal_lit {cc : CharClass} {s : Str} {c : Char} {l' : Lexer}
    (h : Lexer.nextInternal cc ⟨s, none⟩ = (some (.Lit c), l')) :
    ∃ cs, s = c :: cs ∧ Plain cc c ∧ l' = ⟨cs, none⟩ := by
  cases s with
  | nil => simp [Lexer.nextInternal] at h
  | cons d ds =>
    unfold Lexer.nextInternal at h
    simp only at h
    split at h
    · cases h
    · cases h
    · cases h
    · rename_i e1 e2 e3
      simp only [List.cons.injEq] at e3
      obtain ⟨rfl, rfl⟩ := e3
      have hc : d ≠ '\\' := by
        rintro rfl
        cases ds with
        | nil => exact e1 rfl rfl
        | cons d ds => exact e2 d ds rfl rfl
      rcases lexOne_spec cc d ds hc with ⟨o, t, e, hop⟩ | ⟨ho, hw, e⟩ | ⟨hp, e⟩
      · rw [e] at h; cases h
      · rw [e] at h; cases h
      · rw [e] at h; cases h; exact ⟨ds, rfl, hp, rfl⟩

/-- The characters a word goes on with. -/
def WordCont (cc : CharClass) (isName : Bool) (c : Char) : Prop :=
  Plain cc c ∧ (isName = true → cc.nameChar c = true)

theorem wordLoop_spec (cc : CharClass) (isName : Bool) :
    ∀ (n : Nat) (word s : Str), s.length < n →
    ∃ run rest l', s = run ++ rest ∧ MaximalRun (WordCont cc isName) run rest ∧
      Lexer.wordLoop cc isName n word ⟨s, none⟩ =
        (if isName then .Name (word ++ run) else .Literal (word ++ run), l') ∧
      Reach cc l' ∧ l'.size ≤ s.length ∧ ∀ ts, Rem cc l' ts → Lexes cc rest ts := by
  intro n
  induction n with
  | zero => intro _ _ h; omega
  | succ n ih =>
    intro word s hn
    have key := nextInternal_spec cc ⟨s, none⟩ .none
    unfold Lexer.wordLoop
    -- if the next thing is no literal, the word ends here
    have stop : ∀ x l', Lexer.nextInternal cc ⟨s, none⟩ = (some x, l') →
        (∀ c, x = .Lit c → isName = true ∧ cc.nameChar c = false) →
        ∃ run rest l'', s = run ++ rest ∧ MaximalRun (WordCont cc isName) run rest ∧
        ((if isName then Token.Name word else .Literal word), { l' with peeked := some x }) =
          ((if isName then Token.Name (word ++ run) else .Literal (word ++ run)), l'') ∧
        Reach cc l'' ∧ l''.size ≤ s.length ∧ ∀ ts, Rem cc l'' ts → Lexes cc rest ts := by
      intro x l' hx hne
      rw [hx] at key
      obtain ⟨h1, h2, h3, h4⟩ := key
      refine ⟨[], s, { l' with peeked := some x }, rfl, ⟨by simp, ?_⟩, by simp, h2,
        by simpa [Lexer.size] using h3, fun ts h => ?_⟩
      · intro c hc hw
        cases s with
        | nil => simp at hc
        | cons d ds =>
          simp at hc; subst hc
          rw [nextInternal_plain cc d ds hw.1] at hx
          cases hx
          obtain ⟨ha, hb⟩ := hne d rfl
          rw [hw.2 ha] at hb; cases hb
      · cases h4 ts h; assumption
    split
    · rename_i t l' hx
      exact stop _ _ hx (by simp)
    · rename_i t l' hx
      exact stop _ _ hx (by simp)
    · rename_i c l' hx
      split
      · rename_i hc
        have := stop _ _ hx (by rintro d ⟨⟩; simpa using hc)
        simp only [Bool.and_eq_true] at hc
        rw [hc.1] at this ⊢
        exact this
      · rename_i hc
        obtain ⟨cs, rfl, hp, rfl⟩ := nextInternal_lit hx
        obtain ⟨run, rest, l'', rfl, ⟨hm1, hm2⟩, e, hr, hs, hrem⟩ := ih (word ++ [c]) cs
          (by simp at hn; omega)
        refine ⟨c :: run, rest, l'', rfl, ⟨?_, hm2⟩, ?_, hr, by simp at hs ⊢; omega, hrem⟩
        · intro d hd
          simp at hd
          rcases hd with rfl | hd
          · refine ⟨hp, fun hn => ?_⟩
            simp [hn] at hc
            exact hc
          · exact hm1 d hd
        · rw [e]; simp
    · rename_i l' hx
      rw [hx] at key
      obtain ⟨h1, rfl⟩ := key
      cases h1
      refine ⟨[], [], ⟨[], none⟩, rfl, ⟨by simp, by simp⟩, by simp, .none, by simp [Lexer.size],
        fun ts h => ?_⟩
      cases h; assumption

theorem lexes_nil {cc : CharClass} {ts : List Token} (h : Lexes cc [] ts) : ts = [] := by
  generalize hs : ([] : Str) = s at h
  cases h with
  | nil => rfl
  | op hop _ =>
    have := longestOp_ne hop
    simp at hs
    exact absurd hs.1 this
  | _ => simp at hs

/-- One call of `Lexer::next`. -/
theorem next_spec (cc : CharClass) (l : Lexer) (hl : Reach cc l) :
    match l.next cc with
    | (none, l') => l = ⟨[], none⟩ ∧ l' = l
    | (some t, l') => Reach cc l' ∧ l'.size < l.size ∧ ∀ ts, Rem cc l' ts → Rem cc l (t :: ts) := by
  have key := nextInternal_spec cc l hl
  unfold Lexer.next
  generalize hx : l.nextInternal cc = r at key
  rcases r with ⟨_ | x, l'⟩
  · simpa using key
  · obtain ⟨s, p⟩ := l'
    simp only at key
    obtain ⟨rfl, h2, h3, h4⟩ := key
    cases x with
    | Tok t =>
      refine ⟨.none, ?_, fun ts h => h4 _ ?_⟩
      · simp [Lexer.size] at h3 ⊢; omega
      · cases h; exact .tok ‹_›
    | Escaped o =>
      cases o with
      | none =>
        cases h2
        refine ⟨.none, ?_, fun ts h => h4 _ ?_⟩
        · simp [Lexer.size] at h3 ⊢; omega
        · cases h
          rename_i h
          cases lexes_nil h
          exact .escNone
      | some t =>
        refine ⟨.tok, ?_, fun ts h => h4 _ ?_⟩
        · simp [Lexer.size] at h3 ⊢; omega
        · cases h; exact .esc ‹_›
    | Lit c =>
      have hp : Plain cc c := by cases h2; assumption
      obtain ⟨run, rest, l'', rfl, hm, e, hr, hs, hrem⟩ :=
        wordLoop_spec cc (cc.nameStart c) (s.length + 1) [c] s (by omega)
      simp only [e]
      refine ⟨hr, ?_, fun ts h => h4 _ (.lit hp ?_)⟩
      · simp [Lexer.size] at h3 hs ⊢; omega
      · have := hrem ts h
        cases hn : cc.nameStart c with
        | true =>
          rw [hn] at hm
          have hm' : MaximalRun (fun d => Plain cc d ∧ cc.nameChar d = true) run rest := by
            simpa [MaximalRun, WordCont] using hm
          simpa using Lexes.name hp hn hm' this
        | false =>
          rw [hn] at hm
          have hm' : MaximalRun (Plain cc) run rest := by
            simpa [MaximalRun, WordCont] using hm
          simpa using Lexes.literal hp hn hm' this

theorem collectN_spec (cc : CharClass) : ∀ (n : Nat) (l : Lexer), Reach cc l → l.size < n →
    Rem cc l (Lexer.collectN cc n l) := by
  intro n
  induction n with
  | zero => intro _ _ h; omega
  | succ n ih =>
    intro l hl hn
    have key := next_spec cc l hl
    unfold Lexer.collectN
    generalize l.next cc = r at key
    rcases r with ⟨_ | t, l'⟩
    · obtain ⟨rfl, rfl⟩ := key
      exact .none .nil
    · obtain ⟨h1, h2, h3⟩ := key
      exact h3 _ (ih l' h1 (by omega))

/-- The lexer produces the specified token sequence. -/
theorem lex_lexes (cc : CharClass) (src : Str) : Lexes cc src (lex cc src) := by
  have := collectN_spec cc (src.length + 1) (Lexer.new src) .none (by simp [Lexer.size, Lexer.new])
  unfold lex
  cases hr : Lexer.collectN cc (src.length + 1) (Lexer.new src) with
  | nil => rw [hr] at this; cases this; assumption
  | cons t ts => rw [hr] at this; cases this; assumption

end Conch
