import Verif.GramScan0
/-!
# Exact runs of here-documents, without positions
-/
namespace Conch.Gram
open Conch

section
variable {B : Builder}

/-! ## The delimiter -/

theorem lrun_delimTokens {l u r : List Token} (h : DelimToks l u r) (b : B.State)
    (acc : List Token) : LRun delimTokensBody acc l b (acc ++ u) r b := by
  induction h generalizing acc with
  | @nil r hr =>
    refine .done ?_
    unfold delimTokensBody
    refine .peek ?_
    rw [List.append_nil]
    cases r with
    | nil => exact .pure
    | cons t r =>
      have := hr t r rfl
      simp only [List.head?_cons]
      rw [if_pos (by simp [this.1, this.2])]
      exact .pure
  | @cons u l v r hne hu ht _ ih =>
    refine .cont (y := acc ++ u) (l1 := l) (b1 := b) ?_ ?_ ?_
    · unfold delimTokensBody
      refine .peek ?_
      cases u with
      | nil => exact absurd rfl hne
      | cons t u =>
        simp only [List.cons_append, List.head?_cons]
        rw [if_neg]
        · exact .bind (Run.balanced ht) .pure
        · rcases hu t u rfl with h | h <;> simp [h]
    · have : u.length ≠ 0 := by simpa using hne
      simp; omega
    · have := ih (acc ++ u)
      rwa [List.append_assoc] at this

theorem lrun_delim {u : List Token} {q : Bool} {s : Str} (h : DelimText u q s) (b : B.State)
    (q0 : Bool) (s0 : Str) : LRun delimBody (q0, s0) u b (q0 || q, s0 ++ s) [] b := by
  induction h generalizing q0 s0 with
  | nil =>
    refine .done ?_
    unfold delimBody
    simp only [Bool.or_false, List.append_nil]
    exact .getPos fun p => .nextNil .pure
  | @escaped t u q s _ ih =>
    refine .cont (y := (true, s0 ++ t.asStr)) (l1 := u) (b1 := b) ?_ (by simp; omega) ?_
    · unfold delimBody
      exact .getPos fun p => .next (.next .pure)
    · have := ih true (s0 ++ t.asStr)
      simpa using this
  | lastBackslash =>
    refine .cont (y := (true, s0)) (l1 := []) (b1 := b) ?_ (by simp) (.done ?_)
    · unfold delimBody
      exact .getPos fun p => .next (.nextNil .pure)
    · unfold delimBody
      simp only [Bool.or_true, List.append_nil]
      exact .getPos fun p => .nextNil .pure
  | @single x u q s hx _ ih =>
    refine .cont (y := (true, s0 ++ concatTokens x)) (l1 := u) (b1 := b) ?_ (by simp; omega) ?_
    · unfold delimBody
      exact .getPos fun p => .next (.bind (Run.singleQuoted p hx) .pure)
    · have := ih true (s0 ++ concatTokens x)
      simpa using this
  | @double x u q s hx _ ih =>
    refine .cont (y := (true, s0 ++ concatTokens (dqUnquote x))) (l1 := u) (b1 := b) ?_
      (by simp; omega) ?_
    · unfold delimBody
      exact .getPos fun p => .next (.bind (Run.dqDelim p hx) .pure)
    · have := ih true (s0 ++ concatTokens (dqUnquote x))
      simpa using this
  | @backtick x u q s hx _ ih =>
    refine .cont (y := (true, s0 ++ Token.Backtick.asStr ++ concatTokens (unescape x) ++
      Token.Backtick.asStr)) (l1 := u) (b1 := b) ?_ (by simp; omega) ?_
    · unfold delimBody
      exact .getPos fun p => .next (.bind (Run.backtickRemoved p hx) .pure)
    · have := ih true (s0 ++ Token.Backtick.asStr ++ concatTokens (unescape x) ++
        Token.Backtick.asStr)
      simpa [concatTokens] using this
  | @plain t u q s ht _ ih =>
    refine .cont (y := (q0, s0 ++ t.asStr)) (l1 := u) (b1 := b) ?_ (by simp) ?_
    · unfold delimBody
      refine .getPos fun p => .next ?_
      cases t <;> first | exact .pure | simp at ht
    · have := ih q0 (s0 ++ t.asStr)
      simpa using this

theorem ofTokens_toks (ts : List Token) : (AIter.ofTokens ts).toks = ts := annotate_toks _ ts

theorem Run.heredocDelim {l u r : List Token} {q : Bool} {s : Str} (b : B.State)
    (h : DelimToks l u r) (ht : DelimText u q s) (hs : s ≠ []) :
    Run heredocDelim l b (q, s) r b := by
  unfold Conch.heredocDelim
  refine .bind (lrun_delimTokens h b []).run ?_
  rw [List.nil_append]
  refine .bind (Run.withIterRestore (ofTokens_toks u) (lrun_delim ht b false []).run) ?_
  simp only [Bool.false_or, List.nil_append]
  rw [if_neg (by simpa using hs)]
  exact .pure

/-! ## The rest of the line -/

theorem lrun_saveLine {l u r : List Token} (h : RestOfLine l u r) (b : B.State) (acc : List Token) :
    LRun saveLineBody acc l b (acc ++ u) r b := by
  induction h generalizing acc with
  | eof =>
    refine .done ?_
    unfold saveLineBody
    rw [List.append_nil]
    exact .peek .pure
  | newline =>
    refine .done ?_
    unfold saveLineBody
    exact .peek (.next .pure)
  | @cons u l v r hne hu ht _ ih =>
    refine .cont (y := acc ++ u) (l1 := l) (b1 := b) ?_ ?_ ?_
    · unfold saveLineBody
      refine .peek ?_
      have h := Run.bind (f := fun ts => pure (Step.cont (acc ++ ts))) (Run.balanced (b := b) ht)
        (.pure (a := Step.cont (α := List Token) (acc ++ u)))
      cases u with
      | nil => exact absurd rfl hne
      | cons t u =>
        have hn : t ≠ .Newline := by rintro rfl; exact hu _ rfl
        cases t <;> first | exact h | exact absurd rfl hn
    · have : u.length ≠ 0 := by simpa using hne
      simp; omega
    · have := ih (acc ++ u)
      rwa [List.append_assoc] at this

/-! ## The lines -/

theorem byteLen_append (s t : Str) : Str.byteLen (s ++ t) = Str.byteLen s + Str.byteLen t := by
  simp [Str.byteLen]

theorem lineLen_eq (max : Nat) (n : Nat) (c : List Token)
    (h : n + Str.byteLen (concatTokens c) ≤ max) :
    lineLen max n c = n + Str.byteLen (concatTokens c) := by
  induction c generalizing n with
  | nil => simp [lineLen, concatTokens, Str.byteLen]
  | cons t c ih =>
    have hc : concatTokens (t :: c) = t.asStr ++ concatTokens c := rfl
    rw [hc, byteLen_append] at h ⊢
    unfold lineLen
    rw [if_neg (by unfold Token.len; omega), ih _ (by unfold Token.len; omega)]
    unfold Token.len
    omega

theorem isDelimLine_iff (delim : Str) (c : List Token) :
    isDelimLine delim c = true ↔ IsDelim delim c := by
  unfold isDelimLine IsDelim
  have hr := byteLen_append delim ['\r']
  constructor
  · intro h
    simp only [Bool.and_eq_true, Bool.or_eq_true, decide_eq_true_eq] at h
    exact h.2
  · intro h
    have hl : lineLen (Str.byteLen (delim ++ ['\r'])) 0 c = Str.byteLen (concatTokens c) := by
      rw [lineLen_eq]
      · simp
      · rcases h with h | h <;> rw [h] <;> omega
    simp only [Bool.and_eq_true, Bool.or_eq_true, decide_eq_true_eq]
    refine ⟨?_, h⟩
    rw [hl]
    rcases h with h | h
    · left; rw [h]
    · right; rw [h]

/-- What the loop over a line does with its first token. -/
theorem stripTabs_ws (acc : List Token) (p q e : SourcePos) (w : Str) (L : List Spec.PTok)
    (b : B.State) : stripTabs (acc, p) (st ((q, .Whitespace w) :: L) e b) =
      (.ok (acc ++ untab w, p.advanceTabs (tabs w)), st L e b) := by
  unfold stripTabs untab tabs
  rw [peek_bind]
  simp only [List.head?_cons, Option.map_some]
  rw [next_bind_cons]
  rw [pure_eq]
  by_cases h : w.dropWhile (fun x => decide (x = '\t')) = []
  · rw [if_pos h, if_pos (by rw [h]; rfl), List.append_nil]
  · rw [if_neg h, if_neg (by rw [List.isEmpty_iff]; exact h)]

theorem stripTabs_other (acc : List Token) (p e : SourcePos) (L : List Spec.PTok)
    (h : ∀ q w L', L ≠ (q, .Whitespace w) :: L')
    (b : B.State) : stripTabs (acc, p) (st L e b) = (.ok (acc, p), st L e b) := by
  unfold stripTabs
  rw [peek_bind]
  rcases L with _ | ⟨⟨q, t⟩, L⟩
  · rfl
  · cases t <;> first | rfl | exact absurd rfl (h _ _ _)

/-- What ends a line. -/
inductive LineEnd (strip : Bool) (delim : Str) (e : SourcePos) (b : B.State) (c : List Token) :
    List Spec.PTok → Option (List Token) → List Spec.PTok → Prop
  | newlineDelim {q R} : IsDelim delim c → LineEnd strip delim e b c ((q, .Newline) :: R) none R
  | newline {q R} : ¬ IsDelim delim c →
      LineEnd strip delim e b c ((q, .Newline) :: R) (some (c ++ [.Newline])) R
  | eofDelim : IsDelim delim c ∨ c = [] → LineEnd strip delim e b c [] none []
  | eof : ¬ IsDelim delim c → c ≠ [] → LineEnd strip delim e b c [] (some c) []

theorem lineBody_end {strip : Bool} {delim : Str} {e : SourcePos} {b : B.State}
    {acc : List Token} {L a R} (h : LineEnd strip delim e b acc L a R) (p : SourcePos) :
    ∃ a', a'.map Prod.fst = a ∧ (∀ x, a' = some x → x.2 = p) ∧
    (do match ← (next : P AIter B (Option Token)) with
      | none =>
        if acc.isEmpty then pure (.done none)
        else if isDelimLine delim acc then pure (.done none)
        else pure (.done (some (acc, p)))
      | some .Newline =>
        if isDelimLine delim acc then pure (.done none)
        else pure (.done (some (acc ++ [.Newline], p)))
      | some t => pure (.cont (acc ++ [t], p)) :
        P AIter B (Step (List Token × SourcePos) (Option (List Token × SourcePos)))) (st L e b) =
      (.ok (.done a'), st R e b) := by
  cases h with
  | newlineDelim h => exact ⟨none, rfl, by simp, by rw [next_bind_cons]; simp [(isDelimLine_iff _ _).2 h, pure_eq]⟩
  | newline h =>
    refine ⟨some (acc ++ [.Newline], p), rfl, by simp, ?_⟩
    rw [next_bind_cons]; simp [mt (isDelimLine_iff _ _).1 h, pure_eq]
  | eofDelim h =>
    refine ⟨none, rfl, by simp, ?_⟩
    rw [next_bind_nil]
    rcases h with h | h
    · simp [(isDelimLine_iff _ _).2 h, pure_eq]
    · simp [h, pure_eq]
  | eof h h' =>
    refine ⟨some (acc, p), rfl, by simp, ?_⟩
    rw [next_bind_nil]
    simp [mt (isDelimLine_iff _ _).1 h, h', pure_eq]

theorem lineEnd_noWs {strip : Bool} {delim : Str} {e : SourcePos} {b : B.State} {c : List Token} {L a R}
    (h : LineEnd strip delim e b c L a R) : ∀ q w L', L ≠ (q, .Whitespace w) :: L' := by
  cases h <;> simp

theorem advanceTabs_add (p : SourcePos) (m n : Nat) :
    (p.advanceTabs m).advanceTabs n = p.advanceTabs (m + n) := by
  simp [SourcePos.advanceTabs, Nat.add_assoc]

theorem lineBody_run {strip : Bool} {delim : Str} {e : SourcePos} {b : B.State} (C : List Spec.PTok)
    (hc : ∀ t ∈ C, t.2 ≠ .Newline) {L a R} (acc : List Token)
    (h : LineEnd strip delim e b (acc ++ lineOf strip (toks C)) L a R) (p : SourcePos) :
    ∃ a', a'.map Prod.fst = a ∧ (∀ x, a' = some x → x.2 = p.advanceTabs (cut strip (toks C))) ∧
      LoopRun (heredocLineBody strip delim) (acc, p) (st (C ++ L) e b) (.ok a', st R e b) := by
  have hcont : ∀ (acc : List Token) (p q : SourcePos) (t : Token) (L : List Spec.PTok), t ≠ .Newline →
      (do match ← (next : P AIter B (Option Token)) with
      | none =>
        if acc.isEmpty then pure (.done none)
        else if isDelimLine delim acc then pure (.done none)
        else pure (.done (some (acc, p)))
      | some .Newline =>
        if isDelimLine delim acc then pure (.done none)
        else pure (.done (some (acc ++ [.Newline], p)))
      | some t => pure (.cont (acc ++ [t], p)) :
        P AIter B (Step (List Token × SourcePos) (Option (List Token × SourcePos)))) (st ((q, t) :: L) e b) =
      (.ok (.cont (acc ++ [t], p)), st L e b) := by
    intro acc p q t L ht
    rw [next_bind_cons]
    cases t <;> first | rfl | exact absurd rfl ht
  cases strip with
  | false =>
    simp only [lineOf] at h
    rw [if_neg (by simp)] at h
    induction C generalizing acc p with
    | nil =>
      simp only [List.map_nil, List.append_nil] at h
      obtain ⟨a', h1, hq, h2⟩ := lineBody_end h p
      exact ⟨a', h1, hq, .done h2⟩
    | cons x C ih =>
      obtain ⟨q, t⟩ := x
      have := ih (fun t ht => hc t (by simp [ht])) (acc ++ [t]) p (by simpa using h)
      obtain ⟨a', h1, hq, h2⟩ := this
      refine ⟨a', h1, hq, .cont (y := (acc ++ [t], p)) (s1 := st (C ++ L) e b) ?_ (by simp) h2⟩
      exact hcont acc p q t (C ++ L) (hc (q, t) (by simp))
  | true =>
    simp only [lineOf, if_true] at h
    obtain ⟨n, hn⟩ : ∃ n, C.length ≤ n := ⟨_, Nat.le_refl _⟩
    induction n using Nat.strongRecOn generalizing C acc p with | _ n IH =>
    rcases C with _ | ⟨⟨q, t⟩, C⟩
    · simp only [List.map_nil, stripLine, List.append_nil] at h
      obtain ⟨a', h1, hq, h2⟩ := lineBody_end h p
      refine ⟨a', h1, hq, .done ?_⟩
      refine Eq.trans ?_ h2
      unfold heredocLineBody
      rw [if_pos rfl]
      exact bind_ok (stripTabs_other acc p e L (lineEnd_noWs h) b)
    · by_cases hw : ∃ w, t = .Whitespace w ∧ (C = [] ∨ ∃ x C', C = x :: C')
      · -- covered above
        obtain ⟨w, rfl, rfl | ⟨x, C', rfl⟩⟩ := hw
        · simp only [List.map_cons, List.map_nil, stripLine] at h
          have hp' := stripTabs_ws acc p q e w L b
          obtain ⟨a', h1, hq, h2⟩ := lineBody_end h (p.advanceTabs (tabs w))
          refine ⟨a', h1, hq, .done ?_⟩
          refine Eq.trans ?_ h2
          unfold heredocLineBody
          rw [if_pos rfl]
          exact bind_ok hp'
        · obtain ⟨q', t⟩ := x
          simp only [List.map_cons, stripLine] at h
          have hp' := stripTabs_ws acc p q e w ((q', t) :: C' ++ L) b
          obtain ⟨a', h1, hq, h2⟩ := IH C'.length (by simp at hn; omega) C' (fun t ht => hc t (by simp [ht]))
            (acc ++ untab w ++ [t]) (p.advanceTabs (tabs w)) (by simpa using h) (Nat.le_refl _)
          refine ⟨a', h1, fun x hx => (hq x hx).trans (advanceTabs_add _ _ _),
            .cont (y := (acc ++ untab w ++ [t], p.advanceTabs (tabs w))) (s1 := st (C' ++ L) e b) ?_
            (by simp; omega) h2⟩
          unfold heredocLineBody
          rw [if_pos rfl]
          exact (bind_ok hp').trans (hcont (acc ++ untab w) _ q' t (C' ++ L) (hc (q', t) (by simp)))
      · have hw' : ∀ w, t ≠ .Whitespace w := by
          rintro w rfl
          exact hw ⟨w, rfl, by cases C <;> simp⟩
        have hs : stripLine (toks ((q, t) :: C)) = t :: stripLine (toks C) := by
          cases t <;> first | rfl | exact absurd rfl (hw' _)
        rw [hs] at h
        have hs' : cut true (toks ((q, t) :: C)) = cut true (toks C) := by
          cases t <;> first | rfl | exact absurd rfl (hw' _)
        obtain ⟨a', h1, hq, h2⟩ := IH C.length (by simp at hn; omega) C (fun t ht => hc t (by simp [ht]))
          (acc ++ [t]) p (by simpa using h) (Nat.le_refl _)
        refine ⟨a', h1, by rw [hs']; exact hq, .cont (y := (acc ++ [t], p)) (s1 := st (C ++ L) e b) ?_
          (by simp) h2⟩
        unfold heredocLineBody
        rw [if_pos rfl]
        refine (bind_ok (stripTabs_other acc p e _ ?_ b)).trans
          (hcont acc p q t (C ++ L) (hc (q, t) (by simp)))
        rintro q w L' h
        cases h
        exact hw' _ rfl

theorem here_run {strip : Bool} {delim : Str} {l body r : List Token} (h : HereLines strip delim l body r)
    (hd : delim ≠ []) (b : B.State) (e : SourcePos) (L : List Spec.PTok) (hL : toks L = l)
    (acc : List (List Token × SourcePos)) :
    ∃ lines R, toks R = r ∧
      LoopRun (heredocBody strip delim) acc (st L e b) (.ok lines, st R e b) ∧
      lines.flatMap (·.1) = acc.flatMap (·.1) ++ body := by
  have key : ∀ {acc : List (List Token × SourcePos)} {C L : List Spec.PTok} {a R},
      (∀ t ∈ C, t.2 ≠ .Newline) → LineEnd strip delim e b (lineOf strip (toks C)) L a R →
      ∃ a' : Option (List Token × SourcePos), a'.map Prod.fst = a ∧
        heredocBody strip delim acc (st (C ++ L) e b) =
        (match a' with
          | none => (.ok (.done acc), st R e b)
          | some x => (.ok (.cont (acc ++ [x])), st R e b)) := by
    intro acc C L a R hC h
    obtain ⟨a', h1, -, h2⟩ := lineBody_run C hC [] (by simpa using h) (AIter.pos ⟨C ++ L, e⟩)
    refine ⟨a', h1, ?_⟩
    unfold heredocBody
    rw [getPos_bind, bind_ok h2.loop]
    cases a' <;> rfl
  induction h generalizing L acc with
  | @delim c r hc hI =>
    obtain ⟨C, L, rfl, rfl, h⟩ := toks_append hL
    obtain ⟨q, R, rfl, rfl⟩ := toks_cons h
    obtain ⟨a', h1, h2⟩ := key (acc := acc) (lift_mem hc) (.newlineDelim (q := q) (R := R) hI)
    cases a' with
    | some x => cases h1
    | none => exact ⟨acc, R, rfl, .done h2, by simp⟩
  | @line c l body r hc hI _ ih =>
    obtain ⟨C, L, rfl, rfl, h⟩ := toks_append hL
    obtain ⟨q, R, rfl, rfl⟩ := toks_cons h
    obtain ⟨a', h1, h2⟩ := key (acc := acc) (lift_mem hc) (.newline (q := q) (R := R) hI)
    cases a' with
    | none => cases h1
    | some x =>
      obtain ⟨lines, R', hR', h3, h4⟩ := ih R rfl (acc ++ [x])
      refine ⟨lines, R', hR', .cont h2 (by simp; omega) h3, ?_⟩
      rw [h4]
      simp only [Option.map_some, Option.some.injEq] at h1
      simp [h1]
  | @lastDelim c hc hI =>
    subst hL
    obtain ⟨a', h1, h2⟩ := key (acc := acc) (lift_mem hc) (.eofDelim (.inl hI))
    rw [List.append_nil] at h2
    cases a' with
    | some x => cases h1
    | none => exact ⟨acc, [], rfl, .done h2, by simp⟩
  | @lastLine c hc hI =>
    subst hL
    by_cases hne : lineOf strip (toks L) = []
    · obtain ⟨a', h1, h2⟩ := key (acc := acc) (lift_mem hc) (.eofDelim (.inr hne))
      rw [List.append_nil] at h2
      cases a' with
      | some x => cases h1
      | none => exact ⟨acc, [], rfl, .done h2, by simp [hne]⟩
    · obtain ⟨a', h1, h2⟩ := key (acc := acc) (lift_mem hc) (.eof hI hne)
      rw [List.append_nil] at h2
      cases a' with
      | none => cases h1
      | some x =>
        have hl : lineOf strip (toks ([] : List Spec.PTok)) = [] := by
          unfold lineOf; split <;> rfl
        obtain ⟨a2, h3, h4⟩ := key (acc := acc ++ [x]) (C := []) (by simp) (.eofDelim (.inr hl))
        cases a2 with
        | some x => cases h3
        | none =>
          refine ⟨acc ++ [x], [], rfl, .cont h2 ?_ (.done h4), ?_⟩
          · cases L with
            | nil => exact absurd hl hne
            | cons _ _ => simp
          · simp only [Option.map_some, Option.some.injEq] at h1
            simp [h1]

/-- The loop over the lines and what follows. -/
theorem Run.hereLines {α : Type} {strip : Bool} {delim : Str} {l body r : List Token}
    (h : HereLines strip delim l body r) (hd : delim ≠ []) {b : B.State}
    {f : List (List Token × SourcePos) → P AIter B α} {a r' b'}
    (hf : ∀ lines, lines.flatMap (·.1) = body → Run (f lines) r b a r' b') :
    Run (loop (heredocBody strip delim) [] >>= f) l b a r' b' := by
  intro L e hL
  obtain ⟨lines, R, hR, h1, h2⟩ := here_run h hd b e L hL []
  obtain ⟨R', e', hR', h3⟩ := hf lines (by simpa using h2) R e hR
  exact ⟨R', e', hR', by rw [bind_ok h1.loop, h3]⟩

theorem Run.bufferFirst {ts l : List Token} {p : SourcePos} {b : B.State} :
    Run (bufferFirst ts p) l b () (ts ++ l) b := by
  intro L e hL
  refine ⟨annotate p ts ++ L, e, ?_, rfl⟩
  unfold toks
  rw [List.map_append, annotate_toks]
  rw [show L.map (·.2) = l from hL]

/-- The word of the body. -/
def hereBody (R : Rec AIter B) (quoted : Bool) (start : SourcePos)
    (lines : List (List Token × SourcePos)) : P AIter B (ComplexWordKind B.Command) :=
  if quoted then pure (.Single (.Simple (.Literal (concatTokens (lines.flatMap (·.1))))))
  else do
    let sub := lines.foldr (fun c it => TokStream.bufferFirst it c.1 c.2)
      (TokStream.withPosition (I := AIter) start)
    let body ← withIter sub (wordInterpolatedRaw R none start)
    pure (heredocWord body)

theorem Run.heredoc {R : Rec AIter B} {fd : Option Nat} {t : Token}
    {l l1 u l2 saved l3 body r : List Token} {q : Bool} {delim : Str} {b k b1 w b2 a b3}
    (ht : t = .DLess ∨ t = .DLessDash) (hs : Skip l l1) (hd : DelimToks l1 u l2)
    (hx : DelimText u q delim) (hne : delim ≠ []) (hr : RestOfLine l2 saved l3)
    (hh : HereLines (t = .DLessDash) delim l3 body r)
    (hb : ∀ lines start l, lines.flatMap (·.1) = body → Run (hereBody R q start lines) l b k l b1)
    (hw : B.call (.word k) b1 = (.ok w, b2))
    (ha : B.call (.redirect (.Heredoc fd w)) b2 = (.ok a, b3)) :
    Run (redirectHeredoc R fd) (t :: l) b a (saved ++ r) b3 := by
  unfold redirectHeredoc
  refine .bind (a := decide (t = .DLessDash)) (r := l) (b' := b) ?_ ?_
  · rcases ht with rfl | rfl
    · exact .eatYes .pure
    · exact .eatNo (by simp) (.eatYes .pure)
  refine .bind (Run.skip hs) ?_
  refine .bind (Run.heredocDelim b hd hx hne) ?_
  refine .getPos fun savedPos => ?_
  refine .bind (lrun_saveLine hr b []).run ?_
  rw [List.nil_append]
  refine .getPos fun start => ?_
  refine Run.hereLines hh hne fun lines hl => ?_
  refine .bind .bufferFirst ?_
  refine .bind (hb lines start _ hl) ?_
  exact .bind (.call hw) (.call ha)

theorem hereBody_quoted {R : Rec AIter B} {body : List Token} {b : B.State} :
    ∀ lines start l, lines.flatMap (·.1) = body →
      Run (hereBody R true start lines) l b (.Single (.Simple (.Literal (concatTokens body)))) l b := by
  rintro lines start l rfl
  unfold hereBody
  rw [if_pos rfl]
  exact .pure

theorem heredocWord_eq {C : Type} (ws : List (SimpleWordKind C)) : heredocWord ws = hereWord ws := by
  unfold heredocWord hereWord; rfl

theorem chunk_toks (cs : List (List Token × SourcePos)) (p : SourcePos) :
    (cs.foldr (fun c it => TokStream.bufferFirst it c.1 c.2)
      (TokStream.withPosition (I := AIter) p)).toks = cs.flatMap (·.1) := by
  rw [foldr_buffer]
  show (chunkToks cs).map (·.2) = _
  induction cs with
  | nil => rfl
  | cons c cs ih =>
    simp only [chunkToks, List.flatMap_cons, List.map_append] at ih ⊢
    rw [ih, annotate_toks]

theorem hereBody_unquoted {R : Rec AIter B} {body r : List Token} {b : B.State} {ps b'}
    (h : ∀ p, Run (wordInterpolatedRaw R none p) body b ps r b') :
    ∀ lines start l, lines.flatMap (·.1) = body →
      Run (hereBody R false start lines) l b (hereWord ps) l b' := by
  rintro lines start l rfl
  unfold hereBody
  rw [if_neg (by simp), ← heredocWord_eq]
  exact .bind (.withIter (chunk_toks lines start) (h start)) .pure

end
end Conch.Gram
