import Verif.FinalLex
/-!
# Errors that no continuation can repair: words and commands
-/
namespace Conch
open Spec
namespace Final
set_option maxRecDepth 4000

variable {α β σ : Type}

/-- The recursive occurrences. -/
structure RecEx (R R' : Rec AIter EmptyBuilder) : Prop where
  group : ∀ d, Token.Newline ∉ d.reservedTokens → Ex (R.group d) (R'.group d)
  param : Ex R.param R'.param

macro_rules | `(tactic| ex_lemma) => `(tactic| ((refine RecEx.group (by assumption) _ ?_); first | assumption | decide | exact List.not_mem_nil))
macro_rules | `(tactic| ex_lemma) => `(tactic| exact RecEx.param (by assumption))

/-! ## Backticks -/

/-- The chunks of a backtick region. -/
def chunksOf : List (List Token × SourcePos) → List Token → SourcePos → List PTok → List (List Token × SourcePos)
  | cs, chunk, start, (_, .Backslash) :: (q, u) :: xs =>
    if u.backtickSpecial then chunksOf (cs ++ [(chunk, start)]) [u] q xs
    else chunksOf cs (chunk ++ [.Backslash, u]) start xs
  | cs, chunk, start, (_, t) :: xs => chunksOf cs (chunk ++ [t]) start xs
  | cs, chunk, start, [] => if chunk.isEmpty then cs else cs ++ [(chunk, start)]

theorem chunkLoop_chunksOf {b' b'' : Balanced AIter} (h' : b'.next = (none, b''))
    (h'' : b''.next = (none, b'')) (n : Nat) : ∀ (xs : List PTok) (b : Balanced AIter) (cs chunk start),
    Balanced.Steps b xs b' → xs.length < n →
    chunkLoop n cs chunk start b = (.ok (chunksOf cs chunk start xs), b'') := by
  induction n with
  | zero => intro xs b cs chunk start _ h; omega
  | succ n ih =>
    intro xs b cs chunk start hs hn
    cases hs with
    | nil => simp [chunkLoop, h', chunksOf]
    | @cons _ b1 _ p t xs hpos hnext hs =>
      by_cases ht : t = .Backslash
      · subst ht
        cases hs with
        | nil =>
          cases n with
          | zero => simp at hn
          | succ n => simp [chunkLoop, hnext, h', h'', chunksOf]
        | @cons _ b2 _ q u xs hpos2 hnext2 hs =>
          by_cases hu : u.backtickSpecial = true
          · have h1 := ih xs b2 (cs ++ [(chunk, start)]) [u] q hs (by simp at hn; omega)
            simp [chunkLoop, hnext, hnext2, hu, hpos2, h1, chunksOf]
          · have h1 := ih xs b2 cs (chunk ++ [.Backslash, u]) start hs (by simp at hn; omega)
            simp [chunkLoop, hnext, hnext2, hu, h1, chunksOf]
      · have h1 := ih xs b1 cs (chunk ++ [t]) start hs (by simp at hn; omega)
        cases t <;> first | exact absurd rfl ht | simp [chunkLoop, hnext, h1, chunksOf]

/-- The position of the first of these tokens, or of the next one. -/
def firstPos (xs : List PTok) (q : SourcePos) : SourcePos :=
  match xs with
  | [] => q
  | x :: _ => x.1

theorem subIter_det {xs : List PTok} (hb : Body .Backtick xs) (p q : SourcePos) (ys : List PTok) (e : SourcePos) :
    tokenIterFromBackticked (⟨xs ++ (q, .Backtick) :: ys, e⟩ : AIter) p =
      (.ok ⟨chunkToks (chunksOf [] [] (firstPos xs q) xs), AIter.pos ⟨ys, e⟩⟩, ⟨ys, e⟩) := by
  unfold tokenIterFromBackticked createTokenIter backticked
  rw [Balanced.new_delim]
  have h1 := chunkLoop_chunksOf
    (b'' := { Balanced.mk' true [] ys e with done := true })
    (by rw [Balanced.next_close]; rfl)
    (Balanced.next_done _ rfl rfl)
    ((xs ++ (q, Token.Backtick) :: ys).length + 2) xs _ []
    [] (Balanced.mk' true [(.Backtick, p)] (xs ++ (q, .Backtick) :: ys) e).pos
    (Balanced.body_steps hb (.inr (.inr (.inl rfl))) true p [] ((q, .Backtick) :: ys) e (by simp))
    (by simp; omega)
  rw [show TokStream.len (Balanced.mk' true [(Token.Backtick, p)]
    (xs ++ (q, Token.Backtick) :: ys) e).iter + 2 = (xs ++ (q, Token.Backtick) :: ys).length + 2 from rfl, h1]
  have h2 : (Balanced.mk' true [(Token.Backtick, p)] (xs ++ (q, Token.Backtick) :: ys) e).pos =
      firstPos xs q := by
    cases xs <;> rfl
  rw [h2]
  simp only
  rw [foldr_buffer]
  rfl

theorem pos_pair {xs : List PTok} {e e' : SourcePos} (h : xs ≠ []) (y : List PTok) :
    AIter.pos ⟨xs ++ y, e⟩ = AIter.pos ⟨xs, e'⟩ := by
  cases xs with
  | nil => exact absurd rfl h
  | cons x xs => rfl

theorem Stuck.out {r : Res Empty α} (h : Stuck r) {a : α} {s s2 : S} : Out a s2 (r, s) := by
  cases r with
  | ok a => exact h.elim
  | err e => exact h.elim
  | panic => trivial
  | fuel => trivial

theorem Whole.ne {l : List PTok} (h : Whole l) : l ≠ [] := by
  obtain ⟨v, p, rfl⟩ := h
  simp

section
variable {R R' : Rec AIter EmptyBuilder} (hR : RecEx R R')

/-- The part of `backtickedRaw` after the opening backtick. -/
def ticks (R : Rec AIter EmptyBuilder) (pos : SourcePos) : Q (SimpleWordKind Unit) := do
  let sub : SubIter AIter ← fun s =>
    let (r, it) := tokenIterFromBackticked s.it pos
    (.ok r, { s with it := it })
  match sub with
  | .ok sub =>
    let g ← withIterRestore sub (R.group .default)
    pure (.CommandSubst g)
  | .unmatched e => fail (.Unmatched e.tok e.pos)
  | .fuel => outOfFuel

theorem ticks_closed {xs : List PTok} (hb : Body .Backtick xs) (p q : SourcePos) (ys : List PTok) (e : SourcePos) (b : Unit) :
    ticks R p ⟨⟨xs ++ (q, .Backtick) :: ys, e⟩, b⟩ =
      (withIterRestore ⟨chunkToks (chunksOf [] [] (firstPos xs q) xs), AIter.pos ⟨ys, e⟩⟩
        (R.group .default) >>= fun g => pure (.CommandSubst g) : Q _) ⟨⟨ys, e⟩, b⟩ := by
  unfold ticks
  show P.bind _ _ _ = _
  unfold P.bind
  simp only [subIter_det hb]

theorem ticks_unclosed {l : List PTok} {p : SourcePos} {er : UnmatchedError} (hu : Unclosed .Backtick p l er)
    (e : SourcePos) (b : Unit) : ticks R p ⟨⟨l, e⟩, b⟩ = (.err (.Unmatched er.tok er.pos), ⟨⟨[], e⟩, b⟩) := by
  unfold ticks
  show P.bind _ _ _ = _
  unfold P.bind
  simp only [subIter_unclosed hu]
  rfl

theorem restore_ok {m : Q α} {sub : AIter} {s : S} {a : α} {s' : S} (h : withIterRestore sub m s = (.ok a, s')) :
    m ⟨sub, ()⟩ = (.ok a, ⟨(m ⟨sub, ()⟩).2.it, ()⟩) ∧ s' = s := by
  obtain ⟨it, b⟩ := s
  unfold withIterRestore at h
  change (match m ⟨sub, ()⟩ with
    | (r, s') => (r, { s' with it := it })) = _ at h
  generalize m ⟨sub, ()⟩ = z at h ⊢
  obtain ⟨r, s1⟩ := z
  cases h
  exact ⟨rfl, rfl⟩

theorem restore_run {m : Q α} {sub : AIter} {s : S} {z : Res Empty α × S} (h : m ⟨sub, ()⟩ = z) :
    withIterRestore sub m s = (z.1, s) := by
  obtain ⟨it, b⟩ := s
  unfold withIterRestore
  change (match m ⟨sub, ()⟩ with
    | (r, s') => (r, { s' with it := it })) = _
  rw [h]

include hR

theorem ex_ticks (pos : SourcePos) : Ex (ticks R pos) (ticks R' pos) where
  live s1 s2 a s2' hl e := by
    obtain ⟨⟨l, e1⟩, b1⟩ := s1
    obtain ⟨⟨l2, e2⟩, b2⟩ := s2
    unfold Live at hl
    obtain ⟨⟨y, hy⟩, hw⟩ := hl
    simp only at hy hw
    subst hy
    rcases closed_or_unclosed l .Backtick pos (.inr (.inr (.inl rfl))) with ⟨xs, q, ys, rfl, hb⟩ | ⟨er, hu⟩
    · obtain ⟨v, p, hv⟩ := hw
      have hys := split_last (by simp) hv
      rw [ticks_closed hb]
      rw [List.append_assoc, List.cons_append, ticks_closed hb] at e
      rw [pos_pair (e' := e1) hys.ne] at e
      obtain ⟨g, s3, h1, h2⟩ := ok_bind e
      obtain ⟨h3, rfl⟩ := restore_ok h1
      cases h2
      have hl : Live ⟨⟨ys, e1⟩, b1⟩ ⟨⟨ys ++ y, e2⟩, b2⟩ := by
        unfold Live
        exact ⟨⟨y, rfl⟩, hys⟩
      refine bind_live (a := g) (s2' := ⟨⟨ys ++ y, e2⟩, b2⟩) ?_ (fun s hs => .inl ⟨rfl, hs⟩) fun _ _ _ hd => hd
      rcases (hR.group .default (by simp [Delims.default])).same _ _ _ h3 with h4 | h4
      · rw [restore_run h4]
        exact .inl ⟨rfl, hl⟩
      · rw [restore_run rfl]
        exact h4.out
    · rw [ticks_unclosed hu]
      exact ⟨by unfold Dead; rfl, trivial⟩
  dead s1 hd := by
    obtain ⟨e, b, rfl⟩ := dead_eq hd
    rw [ticks_unclosed (.here .nil)]
    exact ⟨hd, trivial⟩
  same s a s' e := by
    obtain ⟨⟨l, e1⟩, b⟩ := s
    rcases closed_or_unclosed l .Backtick pos (.inr (.inr (.inl rfl))) with ⟨xs, q, ys, rfl, hb⟩ | ⟨er, hu⟩
    · rw [ticks_closed hb] at e ⊢
      obtain ⟨g, s3, h1, h2⟩ := ok_bind e
      obtain ⟨h3, rfl⟩ := restore_ok h1
      refine bind_same (m2 := withIterRestore ⟨[], e1⟩ (R'.group .default)) (f2 := fun g => pure (.CommandSubst g)) (a := g) (s1 := ⟨⟨ys, e1⟩, b⟩) ?_ (.inl h2)
      rcases (hR.group .default (by simp [Delims.default])).same _ _ _ h3 with h4 | h4
      · exact .inl (restore_run h4)
      · rw [restore_run rfl]
        exact .inr h4
    · rw [ticks_unclosed hu] at e
      cases e

omit hR in
theorem backticked_eq (R : Rec AIter EmptyBuilder) :
    backtickedRaw R = (getPos >>= fun pos => eat .Backtick >>= fun _ => ticks R pos : Q _) := by
  unfold backtickedRaw ticks
  congr 1
  funext pos
  congr 1
  funext _
  congr 1
  funext sub
  cases sub <;> rfl

theorem ex_backtickedRaw : Ex (backtickedRaw R) (backtickedRaw R') := by
  rw [backticked_eq, backticked_eq]
  exact ex_bind ex_getPos fun pos => ex_bind (ex_eat _) fun _ => ex_ticks hR pos
macro_rules | `(tactic| ex_lemma) => `(tactic| exact ex_backtickedRaw (by assumption))

/-! ## Words -/

theorem ex_wordInterpolatedRaw {o : Option (Token × Token)} {pos : SourcePos} :
    Ex (wordInterpolatedRaw R o pos) (wordInterpolatedRaw R' o pos) := by
  unfold wordInterpolatedRaw
  refine ex_bind (ex_loop fun _ => ?_) fun _ => ex_pure
  unfold interpBody
  ex
macro_rules | `(tactic| ex_lemma) => `(tactic| exact ex_wordInterpolatedRaw (by assumption))

theorem ex_wordLoop {delim : Option Token} : Ex (loop (wordBody R delim) []) (loop (wordBody R' delim) []) := by
  refine ex_loop fun _ => ?_
  unfold wordBody
  ex
macro_rules | `(tactic| ex_lemma) => `(tactic| exact ex_wordLoop (by assumption))

theorem ex_wordRawDelim {delim : Option Token} : Ex (wordRawDelim R delim) (wordRawDelim R' delim) := by
  unfold wordRawDelim
  ex
macro_rules | `(tactic| ex_lemma) => `(tactic| exact ex_wordRawDelim (by assumption))

theorem ex_wordRaw : Ex (wordRaw R) (wordRaw R') := ex_wordRawDelim hR
macro_rules | `(tactic| ex_lemma) => `(tactic| exact ex_wordRaw (by assumption))

theorem ex_wordPreserve : Ex (wordPreserve R) (wordPreserve R') := by
  unfold wordPreserve
  ex
macro_rules | `(tactic| ex_lemma) => `(tactic| exact ex_wordPreserve (by assumption))

theorem ex_word : Ex (word R) (word R') := by
  unfold word
  ex
macro_rules | `(tactic| ex_lemma) => `(tactic| exact ex_word (by assumption))

omit hR in
theorem ex_parameterInner : Ex (parameterInner : Q _) parameterInner := by
  unfold parameterInner
  ex
macro_rules | `(tactic| ex_lemma) => `(tactic| exact ex_parameterInner)

/-- `captureLiteralsBody` with a look-ahead that tests the first token again. -/
def captureLiterals' (words : List (WordKind Unit)) :
    Q (Step (List (WordKind Unit)) (Bool × List (WordKind Unit))) := do
  match ← peek with
  | none => pure (.done (true, words))
  | some t =>
    if t = .CurlyClose then pure (.done (true, words))
    else if t = .Backslash then
      if ← lookahead mpBackslashNewline then
        let _ ← next
        let _ ← next
        pure (.cont (words ++ [.Simple (.Escaped Token.Newline.asStr)]))
      else pure (.done (false, words))
    else if t.substLiteral then
      let _ ← next
      pure (.cont (words ++ [.Simple (.Literal t.asStr)]))
    else pure (.done (false, words))

omit hR in
theorem captureLiterals_eq : captureLiteralsBody (I := AIter) (B := EmptyBuilder) = captureLiterals' := by
  funext ws s
  obtain ⟨⟨l, e⟩, b⟩ := s
  unfold captureLiteralsBody captureLiterals'
  rw [peek_bind, peek_bind]
  cases l with
  | nil => rfl
  | cons x l =>
    obtain ⟨p, t⟩ := x
    by_cases h : t = .Backslash
    · subst h
      rfl
    · simp only [AIter.peek, TokStream.peek, List.head?_cons, Option.map_some, h, if_false]

omit hR in
theorem ex_captureLiterals {ws : List (WordKind Unit)} :
    Ex (loop captureLiteralsBody ws : Q _) (loop captureLiteralsBody ws) := by
  refine ex_loop fun _ => ?_
  rw [captureLiterals_eq]
  unfold captureLiterals'
  ex
macro_rules | `(tactic| ex_lemma) => `(tactic| exact ex_captureLiterals)

theorem ex_paramSubstWordRaw {pos : SourcePos} : Ex (paramSubstWordRaw R pos) (paramSubstWordRaw R' pos) := by
  unfold paramSubstWordRaw
  refine ex_bind (ex_loop fun _ => ?_) fun _ => ?_
  · unfold captureWordsBody
    ex
  · ex
macro_rules | `(tactic| ex_lemma) => `(tactic| exact ex_paramSubstWordRaw (by assumption))

theorem ex_paramSubstBodyRaw {d : DefaultParameter} {pos : SourcePos} :
    Ex (paramSubstBodyRaw R d pos) (paramSubstBodyRaw R' d pos) := by
  unfold paramSubstBodyRaw
  ex
macro_rules | `(tactic| ex_lemma) => `(tactic| exact ex_paramSubstBodyRaw (by assumption))

theorem ex_subshellInternal {e : Bool} : Ex (subshellInternal R e) (subshellInternal R' e) := by
  unfold subshellInternal
  ex
macro_rules | `(tactic| ex_lemma) => `(tactic| exact ex_subshellInternal (by assumption))

omit hR in
theorem ex_paramSubstArith : Ex (paramSubstArith : Q _) paramSubstArith := by
  unfold paramSubstArith
  refine ex_bind (ex_eat _) fun _ => ex_bind (ex_eat _) fun _ => ex_bind ex_skipWhitespace fun _ =>
    ex_bind ?_ fun _ => ?_
  · ex
  · ex
macro_rules | `(tactic| ex_lemma) => `(tactic| exact ex_paramSubstArith)

theorem ex_paramSubstCurly {pos : SourcePos} {d : DefaultParameter} :
    Ex (paramSubstCurly R pos d) (paramSubstCurly R' pos d) := by
  unfold paramSubstCurly
  ex
macro_rules | `(tactic| ex_lemma) => `(tactic| exact ex_paramSubstCurly (by assumption))

/-- Test for two opening parentheses. -/
def mpTwoParens (m : TokStream.MP AIter) : Bool × TokStream.MP AIter :=
  let (t, m) := TokStream.mpNext m
  if t = some .ParenOpen then
    let (t, m) := TokStream.mpNext m
    (t = some .ParenOpen, m)
  else (false, m)

omit hR in
theorem la_mpTwoParens : Ex (lookahead mpTwoParens : Q Bool) (lookahead mpTwoParens) := by
  refine ex_lookahead (fun m => ?_) fun l y i j h => ?_
  · obtain ⟨i, l⟩ := m
    match l with
    | [] => rfl
    | t :: l => cases t <;> rfl
  · rcases two h with rfl | ⟨t, u, r, rfl⟩
    · rfl
    · cases t <;> rfl
macro_rules | `(tactic| ex_lemma) => `(tactic| exact la_mpTwoParens)

/-- `parameterSubstitutionRaw` with that look-ahead. -/
def paramSubst' (R : Rec AIter EmptyBuilder) : Q (SimpleWordKind Unit) := do
  let startPos ← getPos
  match ← peek with
  | some .ParenOpen =>
    if ← lookahead mpTwoParens then paramSubstArith
    else
      let g ← subshellInternal R true
      pure (.Subst (.Command g))
  | some .CurlyOpen =>
    let _ ← next
    let param ← parameterInner
    paramSubstCurly R startPos param
  | _ => unexpected

omit hR in
theorem paramSubst_eq (R : Rec AIter EmptyBuilder) : parameterSubstitutionRaw R = paramSubst' R := by
  funext s
  obtain ⟨⟨l, e⟩, b⟩ := s
  unfold parameterSubstitutionRaw paramSubst'
  cases l with
  | nil => rfl
  | cons x l =>
    obtain ⟨p, t⟩ := x
    cases t <;> rfl

theorem ex_parameterSubstitutionRaw : Ex (parameterSubstitutionRaw R) (parameterSubstitutionRaw R') := by
  rw [paramSubst_eq, paramSubst_eq]
  unfold paramSubst'
  ex
macro_rules | `(tactic| ex_lemma) => `(tactic| exact ex_parameterSubstitutionRaw (by assumption))

theorem ex_parameterRaw : Ex (parameterRaw R) (parameterRaw R') := by
  unfold parameterRaw
  ex
macro_rules | `(tactic| ex_lemma) => `(tactic| exact ex_parameterRaw (by assumption))

/-! ## Redirections -/

theorem ex_getPath : Ex (getPath R) (getPath R') := by
  unfold getPath
  ex
macro_rules | `(tactic| ex_lemma) => `(tactic| exact ex_getPath (by assumption))

theorem ex_getDupPath : Ex (getDupPath R) (getDupPath R') := by
  unfold getDupPath
  ex
macro_rules | `(tactic| ex_lemma) => `(tactic| exact ex_getDupPath (by assumption))

end
end Final
end Conch
