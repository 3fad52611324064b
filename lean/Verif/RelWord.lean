import Verif.RelLex
/-!
# Related runs: words, parameters and substitutions
-/
namespace Conch

variable {I J : Type} [TokStream I] [TokStream J] {B C : Builder}
variable {S : StreamSim I J} {H : Hom B C} {α β : Type}

/-- Related recursive occurrences. -/
structure RecRel (S : StreamSim I J) (H : Hom B C) (R : Rec I B) (R' : Rec J C) : Prop where
  group : ∀ d, Rel S H (CommandGroup.map H.command) (R.group d) (R'.group d)
  param : Rel S H (SimpleWordKind.map H.command) R.param R'.param

macro_rules | `(tactic| rel_lemma) => `(tactic| exact RecRel.group (by assumption) _)
macro_rules | `(tactic| rel_lemma) => `(tactic| exact RecRel.param (by assumption))

theorem couldBeNumericS_map {C D : Type} (f : C → D) (w : SimpleWordKind C) :
    (w.map f).couldBeNumeric = w.couldBeNumeric := by
  cases w <;> rfl

theorem couldBeNumericW_map {C D : Type} (f : C → D) (w : WordKind C) :
    (w.map f).couldBeNumeric = w.couldBeNumeric := by
  cases w with
  | Simple s => exact couldBeNumericS_map f s
  | DoubleQuoted ss =>
    simp only [WordKind.map, WordKind.couldBeNumeric, mapSimpleKinds_eq, List.all_map]
    congr 1
    funext x
    exact couldBeNumericS_map f x
  | SingleQuoted s => rfl

theorem couldBeNumeric_map {C D : Type} (f : C → D) (w : ComplexWordKind C) :
    (w.map f).couldBeNumeric = w.couldBeNumeric := by
  cases w with
  | Single s => exact couldBeNumericW_map f s
  | Concat ss =>
    simp only [ComplexWordKind.map, ComplexWordKind.couldBeNumeric, mapWordKinds_eq, List.all_map]
    congr 1
    funext x
    exact couldBeNumericW_map f x

theorem literalText_map {C D : Type} (f : C → D) (ws : List (WordKind C)) :
    literalText (ws.map (WordKind.map f)) = literalText ws := by
  induction ws with
  | nil => rfl
  | cons w ws ih =>
    cases w with
    | Simple s =>
      cases s with
      | Literal s => simp only [List.map_cons, WordKind.map, SimpleWordKind.map, literalText, ih]
      | _ => rfl
    | _ => rfl

theorem asNum_map {C D : Type} (f : C → D) (w : ComplexWordKind C) :
    (w.map f).asNum = w.asNum := by
  cases w with
  | Single w =>
    cases w with
    | Simple s => cases s <;> rfl
    | _ => rfl
  | Concat ws =>
    simp only [ComplexWordKind.map, ComplexWordKind.asNum, mapWordKinds_eq, literalText_map]

theorem mkWord_map {C D : Type} (f : C → D) (ws : List (WordKind C)) :
    mkWord (ws.map (WordKind.map f)) = (mkWord ws).map (ComplexWordKind.map f) := by
  match ws with
  | [] => rfl
  | [w] => rfl
  | w :: v :: ws => simp [mkWord, ComplexWordKind.map, mapWordKinds_eq]

theorem heredocWord_map {C D : Type} (f : C → D) (ws : List (SimpleWordKind C)) :
    heredocWord (ws.map (SimpleWordKind.map f)) = (heredocWord ws).map f := by
  match ws with
  | [] => rfl
  | [w] => rfl
  | w :: v :: ws =>
    simp [heredocWord, ComplexWordKind.map, mapWordKinds_eq, Function.comp_def, WordKind.map]

/-- The map on the state of `word_interpolated_raw`. -/
def InterpSt.map {C D : Type} (f : C → D) (st : InterpSt C) : InterpSt D :=
  (st.1.map (SimpleWordKind.map f), st.2)

theorem flush_map {C D : Type} (f : C → D) (st : InterpSt C) :
    flush (InterpSt.map f st) = (flush st).map (SimpleWordKind.map f) := by
  unfold flush InterpSt.map
  simp only
  split <;> simp [SimpleWordKind.map]

theorem store_map {C D : Type} (f : C → D) (st : InterpSt C) (w : SimpleWordKind C) :
    store (InterpSt.map f st) (w.map f) = InterpSt.map f (store st w) := by
  unfold store
  rw [flush_map]
  simp [InterpSt.map]

section
variable {R : Rec I B} {R' : Rec J C} (hR : RecRel S H R R')
include hR

theorem rel_backtickedRaw :
    Rel S H (SimpleWordKind.map H.command) (backtickedRaw R) (backtickedRaw R') := by
  unfold backtickedRaw
  refine rel_bind' rel_getPos fun p => ?_
  refine rel_bind' (rel_eat _) fun _ => ?_
  have key : ∀ s s', SR S H s s' →
      S.RSub (tokenIterFromBackticked s.it p).1 (tokenIterFromBackticked s'.it p).1 ∧
      SR S H { s with it := (tokenIterFromBackticked s.it p).2 }
        { s' with it := (tokenIterFromBackticked s'.it p).2 } := fun s s' hs =>
    ⟨(S.tokenIterFromBackticked hs.1 p).1, (S.tokenIterFromBackticked hs.1 p).2, hs.2⟩
  unfold Rel
  intro s s' hs
  obtain ⟨k1, k2⟩ := key s s' hs
  show Out S H _ (P.bind _ _ s) (P.bind _ _ s')
  unfold P.bind
  simp only
  generalize (tokenIterFromBackticked s.it p).1 = r at k1
  generalize (tokenIterFromBackticked s'.it p).1 = r' at k1
  cases k1 with
  | ok k1 =>
    rename_i i j
    have : Rel S H (SimpleWordKind.map H.command)
        (do let g ← withIterRestore i (R.group .default); pure (.CommandSubst g))
        (do let g ← withIterRestore j (R'.group .default); pure (.CommandSubst g)) := by
      refine rel_bind (rel_withIterRestore k1 (hR.group _)) fun g => ?_
      exact rel_pure rfl
    unfold Rel at this
    exact this _ _ k2
  | unmatched => exact .inr ⟨_, rfl, k2⟩
  | fuel => exact .inr ⟨_, rfl, k2⟩
macro_rules | `(tactic| rel_lemma) => `(tactic| exact rel_backtickedRaw (by assumption))

theorem rel_wordInterpolatedRaw (delim : Option (Token × Token)) (p : SourcePos) :
    Rel S H (List.map (SimpleWordKind.map H.command)) (wordInterpolatedRaw R delim p)
      (wordInterpolatedRaw R' delim p) := by
  unfold wordInterpolatedRaw
  have : Rel S H (InterpSt.map H.command) (loop (interpBody R delim p) ([], []))
      (loop (interpBody R' delim p) ([], [])) := by
    refine rel_loop (g := InterpSt.map H.command) rfl fun st => ?_
    unfold interpBody
    rel
    all_goals (refine rel_pure ?_; simp only [Step.map, ← store_map]; try rfl)
  refine rel_bind this fun st => ?_
  exact rel_pure (flush_map _ _)
macro_rules | `(tactic| rel_lemma) => `(tactic| exact rel_wordInterpolatedRaw (by assumption) _ _)

omit hR in
theorem rel_takeSingleQuoted (p : SourcePos) :
    Rel S H id (scan (fun it => takeSingleQuoted it p)) (scan (fun it => takeSingleQuoted it p)) :=
  rel_scan fun _ _ h => S.takeSingleQuoted h p
macro_rules | `(tactic| rel_lemma) => `(tactic| exact rel_takeSingleQuoted _)

omit hR in
theorem rel_takeBalanced : Rel S H id (scan takeBalanced) (scan takeBalanced) :=
  rel_scan fun _ _ h => S.takeBalanced h
macro_rules | `(tactic| rel_lemma) => `(tactic| exact rel_takeBalanced)

theorem rel_wordBody (delim : Option Token) (ws : List (WordKind B.Command)) :
    Rel S H (Step.map (List.map (WordKind.map H.command)) (List.map (WordKind.map H.command)))
      (wordBody R delim ws) (wordBody R' delim (ws.map (WordKind.map H.command))) := by
  unfold wordBody
  rel
  all_goals (
    refine rel_pure ?_
    simp [Step.map, WordKind.map, SimpleWordKind.map, mapSimpleKinds_eq])

theorem rel_wordRawDelim (delim : Option Token) :
    Rel S H (Option.map (ComplexWordKind.map H.command)) (wordRawDelim R delim)
      (wordRawDelim R' delim) := by
  unfold wordRawDelim
  have : Rel S H (List.map (WordKind.map H.command)) (loop (wordBody R delim) [])
      (loop (wordBody R' delim) []) := rel_loop rfl (rel_wordBody hR delim)
  refine rel_bind' rel_skipWhitespace fun _ => ?_
  refine rel_bind' rel_peek fun t => ?_
  split
  · exact rel_pure rfl
  · refine rel_bind this fun ws => ?_
    exact rel_pure (mkWord_map _ _)
macro_rules | `(tactic| rel_lemma) => `(tactic| exact rel_wordRawDelim (by assumption) _)

theorem rel_wordRaw :
    Rel S H (Option.map (ComplexWordKind.map H.command)) (wordRaw R) (wordRaw R') :=
  rel_wordRawDelim hR none
macro_rules | `(tactic| rel_lemma) => `(tactic| exact rel_wordRaw (by assumption))

omit hR in
theorem rel_callWord (w : ComplexWordKind B.Command) :
    Rel S H H.word (call (.word w)) (call (.word (w.map H.command))) := rel_call (.word w)
macro_rules | `(tactic| rel_lemma) => `(tactic| exact rel_callWord _)

theorem rel_wordPreserve : Rel S H (Option.map H.word) (wordPreserve R) (wordPreserve R') := by
  unfold wordPreserve
  refine rel_bind (rel_wordRaw hR) ?_
  rintro (_ | w)
  · exact rel_pure rfl
  · refine rel_bind (rel_callWord w) fun w => ?_
    exact rel_pure rfl

theorem rel_word : Rel S H (Option.map H.word) (word R) (word R') := by
  unfold word
  refine rel_bind (rel_wordPreserve hR) fun _ => ?_
  rel
macro_rules | `(tactic| rel_lemma) => `(tactic| exact rel_word (by assumption))

omit hR in
theorem rel_parameterInner : Rel S H id parameterInner parameterInner := by
  unfold parameterInner
  rel
macro_rules | `(tactic| rel_lemma) => `(tactic| exact rel_parameterInner)

omit hR in
theorem mp_secondNewline : MPRel S mpSecondNewline mpSecondNewline := by
  intro m m' h
  unfold mpSecondNewline
  obtain ⟨t, n, n', h1, h2, h3⟩ := mp_step h
  obtain ⟨u, k, k', e1, e2, h4⟩ := mp_step h3
  simp only [h1, h2, e1, e2]
  exact ⟨trivial, h4⟩
macro_rules | `(tactic| rel_lemma) => `(tactic| exact rel_lookahead mp_secondNewline)

omit hR in
theorem mp_secondParenOpen : MPRel S mpSecondParenOpen mpSecondParenOpen := by
  intro m m' h
  unfold mpSecondParenOpen
  obtain ⟨t, n, n', h1, h2, h3⟩ := mp_step h
  obtain ⟨u, k, k', e1, e2, h4⟩ := mp_step h3
  simp only [h1, h2, e1, e2]
  exact ⟨trivial, h4⟩
macro_rules | `(tactic| rel_lemma) => `(tactic| exact rel_lookahead mp_secondParenOpen)

omit hR in
theorem rel_captureLiterals (ws : List (WordKind B.Command)) :
    Rel S H (fun x => (x.1, x.2.map (WordKind.map H.command)))
      (loop captureLiteralsBody ws) (loop captureLiteralsBody (ws.map (WordKind.map H.command))) := by
  refine rel_loop (g := List.map (WordKind.map H.command)) rfl fun ws => ?_
  unfold captureLiteralsBody
  rel
  all_goals (
    refine rel_pure ?_
    simp [Step.map, WordKind.map, SimpleWordKind.map])

theorem rel_captureWords : Rel S H (List.map (WordKind.map H.command))
      (loop (captureWordsBody R) []) (loop (captureWordsBody R') []) := by
  refine rel_loop (g := List.map (WordKind.map H.command)) rfl fun ws => ?_
  unfold captureWordsBody
  refine rel_bind (rel_captureLiterals ws) ?_
  rintro ⟨stop, ws⟩
  simp only
  split
  · exact rel_pure rfl
  · refine rel_bind (rel_wordRawDelim hR _) ?_
    rintro (_ | ws' | w)
    · exact rel_pure rfl
    · refine rel_pure ?_
      simp [Step.map, mapWordKinds_eq]
    · refine rel_pure ?_
      simp [Step.map]

theorem rel_paramSubstWordRaw (p : SourcePos) :
    Rel S H (mapOptWord H.command) (paramSubstWordRaw R p) (paramSubstWordRaw R' p) := by
  unfold paramSubstWordRaw
  refine rel_bind (rel_captureWords hR) fun ws => ?_
  refine rel_bind' (rel_eatMaybe _) fun c => ?_
  split
  · exact rel_pure (by rw [mkWord_map, mapOptWord_eq])
  · exact rel_fail rfl
macro_rules | `(tactic| rel_lemma) => `(tactic| exact rel_paramSubstWordRaw (by assumption) _)

theorem rel_paramSubstBodyRaw (param : DefaultParameter) (p : SourcePos) :
    Rel S H (SimpleWordKind.map H.command) (paramSubstBodyRaw R param p)
      (paramSubstBodyRaw R' param p) := by
  unfold paramSubstBodyRaw
  refine rel_bind' (rel_eatMaybe _) fun c => ?_
  refine rel_bind' rel_getPos fun c => ?_
  refine rel_bind' rel_next fun c => ?_
  split
  all_goals try (refine rel_bind (rel_paramSubstWordRaw hR p) fun w => ?_)
  all_goals try simp only [mapOptWord_isNone]
  all_goals rel
macro_rules | `(tactic| rel_lemma) => `(tactic| exact rel_paramSubstBodyRaw (by assumption) _ _)

theorem rel_subshellInternal (ok : Bool) :
    Rel S H (CommandGroup.map H.command) (subshellInternal R ok) (subshellInternal R' ok) := by
  unfold subshellInternal
  refine rel_bind' rel_getPos fun c => ?_
  refine rel_bind' (rel_eat _) fun c => ?_
  refine rel_bind (hR.group _) fun g => ?_
  refine rel_bind' rel_peek fun c => ?_
  have : (g.map H.command).commands.isEmpty = g.commands.isEmpty := by
    simp [CommandGroup.map]
  rw [this]
  rel
macro_rules | `(tactic| rel_lemma) => `(tactic| exact rel_subshellInternal (by assumption) _)

omit hR in
theorem rel_paramSubstArith :
    Rel S H (SimpleWordKind.map H.command) paramSubstArith paramSubstArith := by
  unfold paramSubstArith
  have : Rel S H id
    (do
      if (← peek) = some .ParenClose then pure none
      else
        let a ← arithmeticSubstitution
        pure (some a) : P I B (Option DefaultArithmetic))
    (do
      if (← peek) = some .ParenClose then pure none
      else
        let a ← arithmeticSubstitution
        pure (some a) : P J C (Option DefaultArithmetic)) := by rel
  refine rel_bind' (rel_eat _) fun _ => ?_
  refine rel_bind' (rel_eat _) fun _ => ?_
  refine rel_bind' rel_skipWhitespace fun _ => ?_
  refine rel_bind' this fun _ => ?_
  rel
macro_rules | `(tactic| rel_lemma) => `(tactic| exact rel_paramSubstArith)

theorem rel_paramSubstCurly (p : SourcePos) (param : DefaultParameter) :
    Rel S H (SimpleWordKind.map H.command) (paramSubstCurly R p param)
      (paramSubstCurly R' p param) := by
  unfold paramSubstCurly
  refine rel_bind' rel_peek fun c => ?_
  split
  · rel
  · refine rel_bind' rel_next fun c => ?_
    refine rel_bind' (rel_eatMaybe _) fun c => ?_
    split
    · rel
    · refine rel_bind (rel_paramSubstWordRaw hR p) fun w => ?_
      rw [mapOptWord_isNone]
      rel
  · rel
macro_rules | `(tactic| rel_lemma) => `(tactic| exact rel_paramSubstCurly (by assumption) _ _)

theorem rel_parameterSubstitutionRaw :
    Rel S H (SimpleWordKind.map H.command) (parameterSubstitutionRaw R)
      (parameterSubstitutionRaw R') := by
  unfold parameterSubstitutionRaw
  rel
macro_rules
  | `(tactic| rel_lemma) => `(tactic| exact rel_parameterSubstitutionRaw (by assumption))

theorem rel_parameterRaw :
    Rel S H (SimpleWordKind.map H.command) (parameterRaw R) (parameterRaw R') := by
  unfold parameterRaw
  rel
macro_rules | `(tactic| rel_lemma) => `(tactic| exact rel_parameterRaw (by assumption))

end
end Conch
