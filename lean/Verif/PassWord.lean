import Verif.PassArith
import Verif.ScanLemmas
/-!
# The pass over all functions: words, parameters and substitutions
-/
namespace Conch
open Spec

section
variable {B : Builder} {T : Theory B} {α : Type} {s : PSt AIter B}

/-- The recursive functions are well behaved on small streams. -/
structure RecGood (T : Theory B) (n : Nat) (R : Rec AIter B) : Prop where
  group : ∀ cfg s, T.Inv s → s.len < n → T.Tr (R.group cfg) s (fun _ _ => True)
  param : ∀ s, T.Inv s → 0 < s.len → s.len ≤ n → T.Tr R.param s (fun _ s' => s'.len < s.len)

theorem Theory.mem_at {l : List PTok} {e p : SourcePos} {t : Token} (h : T.J ⟨l, e⟩)
    (hp : (p, t) ∈ l) : T.At t p := by
  obtain ⟨l1, l2, rfl⟩ := List.append_of_mem hp
  exact ⟨l2, e, T.suffix h⟩

theorem scan_eq {f : AIter → Collected × AIter} {ts : List Token} {it : AIter}
    (h : f s.it = (.ok ts, it)) : scan f s = (.ok ts, { s with it := it }) := by
  show ofCollected (f s.it).1 { s with it := (f s.it).2 } = _
  rw [h]
  rfl

theorem opens_closer {x : Option Token} {o c : Token} (h : Opens x o c) : Closer c := by
  cases h <;> simp [Closer]

/-- An error of a scan names an opening token. -/
theorem unclosed_opener {c : Token} {p : SourcePos} {l : List PTok} {e : UnmatchedError}
    (h : Unclosed c p l e) (hc : Closer c) : e.tok ∈ openers := by
  induction h with
  | here _ => rcases hc with rfl | rfl | rfl | rfl | rfl <;> simp [opener, openers]
  | backslash _ _ => rcases hc with rfl | rfl | rfl | rfl | rfl <;> simp [opener, openers]
  | inner _ _ _ ho _ ih => exact ih (opens_closer ho)
  | innerBrace _ _ _ ih => exact ih (by simp [Closer])

theorem topUnclosed_opener {l : List PTok} {e : UnmatchedError} (h : TopUnclosed l e) :
    e.tok ∈ openers := by
  cases h with
  | inner ho h => exact unclosed_opener h (opens_closer ho)
  | innerBrace h => exact unclosed_opener h (by simp [Closer])
  | innerParen h => exact unclosed_opener h (by simp [Closer])

theorem scan_err {f : AIter → Collected × AIter} {er : UnmatchedError} {it : AIter}
    (h : f s.it = (.unmatched er, it)) :
    scan f s = (.err (.Unmatched er.tok er.pos), { s with it := it }) := by
  show ofCollected (f s.it).1 { s with it := (f s.it).2 } = _
  rw [h]
  rfl

theorem tr_of_err {m : P AIter B α} {Q : α → PSt AIter B → Prop} {er} {s' : PSt AIter B}
    (h : m s = (.err er, s')) (he : T.Err er s'.b) (ha : T.After s s') : T.Tr m s Q := by
  unfold Theory.Tr; rw [h]; exact ⟨he, ha⟩

theorem after_scan {l : List PTok} {e : SourcePos} {b : B.State} (hi : T.Inv ⟨⟨l, e⟩, b⟩) :
    T.After ⟨⟨l, e⟩, b⟩ ⟨⟨[], e⟩, b⟩ :=
  ⟨T.suffix (xs := l) (r := []) (by simpa using hi.j), .inr ⟨rfl, List.nil_suffix⟩⟩

theorem tr_scan_region (hi : T.Inv s) {c : Token} (hc : Closer c) {p : SourcePos}
    (hp : T.At (opener c) p) :
    T.Tr (scan fun it => takeRegion it c p) s (fun ts s' => ts.length + s'.len < s.len) := by
  obtain ⟨⟨l, e⟩, b⟩ := s
  rcases closed_or_unclosed l c p hc with ⟨xs, q, ys, rfl, hb⟩ | ⟨er, hu⟩
  · refine tr_of_eq (scan_eq (takeRegion_closed hb hc p q ys e)) ?_ ?_
    · have := fr_suffix (xs := xs ++ [(q, c)]) (r := ys) (T := T) (e := e) (b := b)
        (by simpa using hi)
      simpa using this
    · simp [PSt.len]
  · refine tr_of_err (scan_err (takeRegion_unclosed hu hc e)) ?_ (after_scan hi)
    refine ⟨hi.k, ?_⟩
    have ho := unclosed_opener hu hc
    rcases unclosed_at hu with h | h
    · rw [h] at ho ⊢; exact hp.b ho
    · exact (T.mem_at hi.j h).b ho

theorem unit_length {u rest : List PTok} (h : TopUnit u rest) : u ++ rest ≠ [] → u ≠ [] := by
  cases h <;> simp

theorem tr_takeBalanced (hi : T.Inv s) :
    T.Tr (scan takeBalanced) s (fun ts s' => (ts.length + s'.len = s.len ∧
      (0 < s.len → 0 < ts.length)) ∧ ∃ u, s.it.rest = u ++ s'.it.rest ∧ TopUnit u s'.it.rest ∧
        ts = u.map (·.2)) := by
  obtain ⟨⟨l, e⟩, b⟩ := s
  rcases unit_or_unclosed l with ⟨u, rest, rfl, hu⟩ | ⟨er, hu⟩
  · refine tr_of_eq (scan_eq (takeBalanced_unit hu e)) (fr_suffix hi) ⟨⟨?_, ?_⟩, u, rfl, hu, rfl⟩
    · simp [PSt.len]
    · intro h
      have := unit_length hu (by rintro h'; simp [PSt.len, h'] at h)
      simpa [List.length_pos_iff] using this
  · refine tr_of_err (scan_err (takeBalanced_unclosed hu e)) ?_ (after_scan hi)
    refine ⟨hi.k, ?_⟩
    exact (T.mem_at hi.j (topUnclosed_at hu)).b (topUnclosed_opener hu)

theorem tr_withIterRestore {sub : AIter} {m : P AIter B α} (hi : T.Inv s) {Q : α → Prop}
    (h : T.Tr m { s with it := sub } (fun a _ => Q a)) :
    T.Tr (withIterRestore sub m) s (fun a s' => Q a ∧ s'.it = s.it) := by
  unfold Theory.Tr withIterRestore at *
  generalize m { s with it := sub } = z at h ⊢
  obtain ⟨r, s'⟩ := z
  cases r with
  | ok a => exact ⟨⟨hi.j, h.1.k, rfl, Nat.le_refl _, .inr (List.suffix_refl _)⟩, h.2, rfl⟩
  | err e => exact ⟨h.1, hi.after.j, hi.after.suf⟩
  | panic n => exact h
  | fuel => exact h

theorem tr_withIter {sub : AIter} {m : P AIter B α} (hi : T.Inv s) (hd : T.HS) {Q : α → Prop}
    (h : T.Tr m { s with it := sub } (fun a _ => Q a)) :
    T.Tr (withIter sub m) s (fun a s' => Q a ∧ s'.it = s.it) := by
  unfold Theory.Tr withIter at *
  generalize m { s with it := sub } = z at h ⊢
  obtain ⟨r, s'⟩ := z
  cases r with
  | ok a => exact ⟨⟨hi.j, h.1.k, rfl, Nat.le_refl _, .inr (List.suffix_refl _)⟩, h.2, rfl⟩
  | err e => exact ⟨h.1, h.2.j, .inl hd⟩
  | panic n => exact h
  | fuel => exact h

theorem tr_parameterInner (hi : T.Inv s) : T.Tr parameterInner s (fun _ _ => True) := by
  unfold parameterInner
  rw [tr_getPos]
  refine tr_bind (tr_next hi) ?_
  rintro a s1 f1 ⟨ha, -⟩
  have bad : ∀ t, a = some t →
      T.Tr (fail (.BadSubst t s.it.pos) : P AIter B DefaultParameter) s1 (fun _ _ => True) :=
    fun t h => tr_fail (e := .BadSubst t s.it.pos) ⟨f1.k, hi.at (by rw [← ha, h])⟩
  split <;> first
    | exact tr_pure f1.inv trivial
    | exact bad _ rfl
    | exact tr_fail (e := .UnexpectedEOF) f1.k
    | (split <;> first | exact tr_pure f1.inv trivial | exact bad _ rfl)

variable {n : Nat} {R : Rec AIter B} (hR : RecGood T n R)
include hR

theorem tr_backtickedRaw (hi : T.Inv s) (hn : s.len ≤ n) :
    T.Tr (backtickedRaw R) s (fun _ s' => s'.len < s.len) := by
  unfold backtickedRaw
  rw [tr_getPos]
  obtain ⟨⟨l, e⟩, b⟩ := s
  by_cases hb : ∃ p l', l = (p, .Backtick) :: l'
  · obtain ⟨p, l, rfl⟩ := hb
    have hpos : AIter.pos ⟨(p, .Backtick) :: l, e⟩ = p := rfl
    have hp : T.At .Backtick p := ⟨l, e, hi.j⟩
    simp only [hpos]
    refine tr_bind (tr_of_eq (Q := fun _ s' => s' = st l e b)
      (by
        have := eat_bind (B := B) (fun _ => pure ()) p .Backtick l e b
        unfold eat
        rw [eatMaybe_bind_yes]; rfl)
      (fr_suffix (xs := [(p, .Backtick)]) hi) rfl) ?_
    rintro _ _ f1 rfl
    have hlen : (st ((p, .Backtick) :: l) e b : PSt AIter B).len = l.length + 1 := rfl
    have hn : l.length + 1 ≤ n := hn
    rcases closed_or_unclosed l .Backtick p (by simp [Closer]) with ⟨xs, q, ys, rfl, hb⟩ | ⟨er, hu⟩
    · obtain ⟨sub, h1, h2⟩ := subIter_toks hb p q ys e
      have hsub := T.sub hi.j hb h1
      have hsl : sub.rest.length ≤ xs.length := by
        have := congrArg List.length h2
        simp [AIter.toks] at this
        rw [this]; exact unescape_length xs
      refine tr_bind (tr_of_eq (Q := fun a s' => a = .ok sub ∧ s' = st ys e b) (s' := st ys e b)
        (by
          show (Res.ok (tokenIterFromBackticked (⟨xs ++ (q, .Backtick) :: ys, e⟩ : AIter) p).1,
            PSt.mk (tokenIterFromBackticked (⟨xs ++ (q, .Backtick) :: ys, e⟩ : AIter) p).2 b) = _
          rw [h1])
        (by
          have := fr_suffix (xs := xs ++ [(q, .Backtick)]) (r := ys) (T := T) (e := e) (b := b)
            (by simpa using f1.inv)
          simpa using this) ⟨rfl, rfl⟩) ?_
      rintro _ _ f2 ⟨rfl, rfl⟩
      simp only
      refine tr_bind (tr_withIterRestore (Q := fun _ => True) f2.inv
        (hR.group _ _ ⟨hsub, f2.k⟩ ?_)) ?_
      · simp at hn
        show sub.rest.length < n
        omega
      · rintro g s3 f3 ⟨-, h3⟩
        refine tr_pure f3.inv ?_
        have : s3.len = ys.length := by simp [PSt.len, h3]
        simp at hlen
        rw [hlen, this]; omega
    · have h1 := subIter_unclosed hu e
      refine tr_bind (tr_of_eq (Q := fun a s' => a = .unmatched er ∧ s'.b = b)
        (s' := st [] e b)
        (by
          show (Res.ok (tokenIterFromBackticked (⟨l, e⟩ : AIter) p).1,
            PSt.mk (tokenIterFromBackticked (⟨l, e⟩ : AIter) p).2 b) = _
          rw [h1])
        (by
          have := fr_suffix (xs := l) (r := []) (T := T) (e := e) (b := b) (by simpa using f1.inv)
          simpa using this) ⟨rfl, rfl⟩) ?_
      rintro _ s2 f2 ⟨rfl, hs2⟩
      refine tr_fail ⟨f2.k, ?_⟩
      have ho := unclosed_opener hu (by simp [Closer])
      rcases unclosed_at hu with h | h
      · rw [h] at ho ⊢; exact hp.b ho
      · exact (T.mem_at f1.j h).b ho
  · refine tr_bind (Q1 := fun _ _ => False) ?_ (fun _ _ _ h => h.elim)
    unfold eat
    refine tr_bind (tr_eatMaybe hi _) ?_
    rintro a s1 f1 ⟨h1, -⟩
    split
    · rename_i h
      exfalso
      have := (h1 h).1
      cases l with
      | nil => simp [AIter.peek] at this
      | cons x l =>
        obtain ⟨p, t⟩ := x
        simp [AIter.peek] at this
        exact hb ⟨p, l, by rw [this]⟩
    · exact tr_unexpected f1.inv

theorem tr_wordInterpolatedRaw (hi : T.Inv s) (hn : s.len ≤ n) (delim : Option (Token × Token))
    (hd : delim = none → T.HS) {startPos : SourcePos}
    (hp : ∀ d, delim = some d → d.1 ∈ openers ∧ T.At d.1 startPos) :
    T.Tr (wordInterpolatedRaw R delim startPos) s (fun _ _ => True) := by
  unfold wordInterpolatedRaw
  refine tr_bind (tr_loop hi (Q := fun _ _ => True) (fun _ _ => True) trivial ?_) ?_
  · rintro x s1 f1 -
    have hl1 := f1.len
    unfold interpBody
    rw [tr_peek]
    split
    · refine tr_bind (tr_next f1.inv) ?_
      rintro _ s2 f2 -
      exact tr_pure f2.inv trivial
    rename_i hq
    split
    · rename_i h
      have : 0 < s1.len := by
        cases h' : s1.it.peek with
        | none => simp [h'] at h
        | some t => exact peek_some_len h'
      refine tr_bind (hR.param s1 f1.inv this (by omega)) ?_
      rintro w s2 f2 h2
      exact tr_pure f2.inv ⟨trivial, h2⟩
    rename_i hsp
    split
    · refine tr_bind (tr_backtickedRaw hR f1.inv (by omega)) ?_
      rintro w s2 f2 h2
      exact tr_pure f2.inv ⟨trivial, h2⟩
    rename_i hbt
    refine tr_bind (tr_next' f1.inv) ?_
    rintro a s2 f2 ⟨⟨ha, h2⟩, htail⟩
    cases a with
    | none =>
      cases delim with
      | none => exact tr_pure f2.inv trivial
      | some d => exact tr_fail ⟨f2.k, (hp d rfl).2.b (hp d rfl).1⟩
    | some t =>
      have h2' := h2 (by simp)
      rw [← ha] at hsp hbt
      by_cases ht : t = .Backslash
      · subst ht
        simp only
        rw [tr_peek]
        split
        · rename_i hc
          refine tr_bind (tr_next f2.inv) ?_
          rintro a s3 f3 ⟨ha3, h3⟩
          have hl3 := f3.len
          cases a with
          | some t => exact tr_pure f3.inv ⟨trivial, by omega⟩
          | none =>
            rw [← ha3] at hc
            simp at hc
            unfold Theory.Tr panicAt
            refine .inr ⟨rfl, hd (by cases delim with | none => rfl | some d => simp at hc), ?_, f3.k⟩
            have hnil := peek_none.1 ha3.symm
            have hj := f1.j
            obtain ⟨⟨l1, e1⟩, b1⟩ := s1
            cases l1 with
            | nil => simp [AIter.peek] at ha
            | cons x l1 =>
              obtain ⟨q, t⟩ := x
              simp only [AIter.peek, List.head?_cons, Option.map_some, Option.some.injEq] at ha
              simp only [List.tail_cons] at htail
              rw [hnil] at htail
              subst ha; subst htail
              exact ⟨q, e1, hj⟩
        · exact tr_pure f2.inv ⟨trivial, h2'⟩
      · cases t <;> first
          | exact tr_pure f2.inv ⟨trivial, h2'⟩
          | exact absurd rfl ht
          | exact absurd rfl hsp
          | exact absurd rfl hbt
          | (simp at hsp; done)
          | (simp at hbt; done)
  · rintro a s1 f1 -
    exact tr_pure f1.inv trivial

omit hR in
/-- After one iteration of the loop of a word. -/
def WordQ (ws : List (WordKind B.Command)) (s : PSt AIter B) :
    Step (List (WordKind B.Command)) (List (WordKind B.Command)) → PSt AIter B → Prop
  | .cont ws', s' => ws' ≠ [] ∧ s'.len < s.len
  | .done ws', _ => ws' = ws

theorem tr_wordBody (hi : T.Inv s) (hn : s.len ≤ n) (delim : Option Token) (ws) :
    T.Tr (wordBody R delim ws) s (WordQ ws s) := by
  unfold wordBody
  rw [tr_peek]
  cases hpk : s.it.peek with
  | none => exact tr_pure hi rfl
  | some p =>
    simp only
    split
    · exact tr_pure hi rfl
    split
    · exact tr_pure hi rfl
    rename_i hdl
    split
    · refine tr_bind (tr_backtickedRaw hR hi hn) ?_
      rintro w s2 f2 h2
      exact tr_pure f2.inv ⟨by simp, h2⟩
    rename_i hbt
    split
    · refine tr_bind (hR.param s hi (peek_some_len hpk) hn) ?_
      rintro w s2 f2 h2
      exact tr_pure f2.inv ⟨by simp, h2⟩
    rename_i hsp
    rw [tr_getPos]
    have hp := hi.at hpk
    refine tr_bind (tr_next hi) ?_
    rintro a s1 f1 ⟨ha, h1⟩
    rw [hpk] at ha
    subst ha
    have h1 := h1 (by simp)
    simp only
    split
    · exact tr_pure f1.inv ⟨by simp, h1⟩
    rename_i hlit
    by_cases hbs : p = .Backslash
    · subst hbs
      simp only
      refine tr_bind (tr_next f1.inv) ?_
      rintro a s2 f2 -
      have := f2.len
      split
      · exact tr_pure f2.inv rfl
      · exact tr_pure f2.inv rfl
      · exact tr_pure f2.inv ⟨by simp, by omega⟩
    by_cases hsq : p = .SingleQuote
    · subst hsq
      simp only
      refine tr_bind (tr_scan_region f1.inv (c := .SingleQuote) (by simp [Closer]) hp) ?_
      rintro a s2 f2 -
      have := f2.len
      exact tr_pure f2.inv ⟨by simp, by omega⟩
    by_cases hdq : p = .DoubleQuote
    · subst hdq
      simp only
      refine tr_bind (tr_wordInterpolatedRaw hR f1.inv (by omega) _ (by simp)
        (by rintro d hd; cases hd; exact ⟨by simp [openers], hp⟩)) ?_
      rintro a s2 f2 -
      have := f2.len
      exact tr_pure f2.inv ⟨by simp, by omega⟩
    have key : ∀ w, T.Tr (pure (.cont (ws ++ [w])) : P AIter B _) s1 (fun r s' => WordQ ws s r s') :=
      fun w => tr_pure f1.inv ⟨by simp, h1⟩
    cases p <;> first
      | exact key _
      | exact absurd rfl hdl
      | exact absurd rfl hbt
      | exact absurd rfl hsp
      | exact absurd rfl hlit
      | exact absurd rfl hbs
      | exact absurd rfl hsq
      | exact absurd rfl hdq

omit hR in
theorem mkWord_ok {C : Type} {ws : List (WordKind C)} {w} (h : mkWord ws = some w) : WordOk w := by
  unfold mkWord at h
  split at h
  · simp at h
  · cases h; trivial
  · cases h
    rename_i h1 h2
    match ws, h1, h2 with
    | [], h1, _ => exact absurd rfl h1
    | [w], _, h2 => exact absurd rfl (h2 w)
    | a :: b :: ws, _, _ => simp [WordOk]

theorem tr_wordRawDelim (hi : T.Inv s) (hn : s.len ≤ n) (delim : Option Token) :
    T.Tr (wordRawDelim R delim) s (fun a s' => ∀ w, a = some w → WordOk w ∧ s'.len < s.len) := by
  unfold wordRawDelim
  refine tr_bind (tr_skipWhitespace hi) ?_
  rintro _ s1 f1 -
  have hl1 := f1.len
  rw [tr_peek]
  split
  · exact tr_pure f1.inv (by simp)
  refine tr_bind (Q1 := fun ws s' => ws ≠ [] → s'.len < s1.len)
    (tr_loop f1.inv (fun ws s' => ws ≠ [] → s'.len < s1.len) (by simp) ?_) ?_
  · rintro ws s2 f2 hinv
    have hl2 := f2.len
    refine (tr_wordBody hR f2.inv (by omega) delim ws).mono ?_
    rintro (ws' | ws') s3 f3 h3
    · exact ⟨fun _ => Nat.lt_of_lt_of_le h3.2 hl2, h3.2⟩
    · intro hne
      have := hinv (h3 ▸ hne)
      have := f3.len
      omega
  · rintro ws s2 f2 h2
    refine tr_pure f2.inv ?_
    intro w hw
    refine ⟨mkWord_ok hw, ?_⟩
    have : ws ≠ [] := by rintro rfl; simp [mkWord] at hw
    have := h2 this
    omega

theorem tr_wordRaw (hi : T.Inv s) (hn : s.len ≤ n) :
    T.Tr (wordRaw R) s (fun a s' => ∀ w, a = some w → WordOk w ∧ s'.len < s.len) :=
  tr_wordRawDelim hR hi hn none

omit hR in
theorem call_len (h : s'.it = s.it) : PSt.len s' = PSt.len s := by simp [PSt.len, h]

theorem tr_wordPreserve (hi : T.Inv s) (hn : s.len ≤ n) :
    T.Tr (wordPreserve R) s (fun a s' => a ≠ none → s'.len < s.len) := by
  unfold wordPreserve
  refine tr_bind (tr_wordRaw hR hi hn) ?_
  rintro (_ | w) s1 f1 h1
  · exact tr_pure f1.inv (by simp)
  · obtain ⟨h2, h3⟩ := h1 w rfl
    refine tr_bind (tr_call f1.inv h2) ?_
    rintro w s2 f2 h4
    exact tr_pure f2.inv (fun _ => by rw [call_len h4]; exact h3)

theorem tr_word (hi : T.Inv s) (hn : s.len ≤ n) :
    T.Tr (word R) s (fun a s' => a ≠ none → s'.len < s.len) := by
  unfold word
  refine tr_bind (tr_wordPreserve hR hi hn) ?_
  rintro w s1 f1 h1
  refine tr_bind (tr_skipWhitespace f1.inv) ?_
  rintro _ s2 f2 -
  have := f2.len
  exact tr_pure f2.inv (fun h => by have := h1 h; omega)

omit hR in
theorem mpSecondNewline_it (m : AMultipeek) : (mpSecondNewline (I := AIter) m).2.it = m.it := rfl

omit hR in
theorem tr_captureLiterals (hi : T.Inv s) (ws : List (WordKind B.Command)) :
    T.Tr (loop captureLiteralsBody ws) s (fun _ _ => True) := by
  refine tr_loop hi (fun _ _ => True) trivial ?_
  rintro ws s1 f1 -
  unfold captureLiteralsBody
  rw [tr_peek]
  cases hp : s1.it.peek with
  | none => exact tr_pure f1.inv trivial
  | some t =>
    simp only
    split
    · exact tr_pure f1.inv trivial
    split
    · rw [tr_lookahead (mpSecondNewline_it _)]
      split
      · refine tr_bind (tr_next f1.inv) ?_
        rintro _ s2 f2 ⟨rfl, h2⟩
        have := h2 (by simp [hp])
        refine tr_bind (tr_next f2.inv) ?_
        rintro _ s3 f3 -
        have := f3.len
        exact tr_pure f3.inv ⟨trivial, by omega⟩
      · exact tr_pure f1.inv trivial
    split
    · refine tr_bind (tr_next f1.inv) ?_
      rintro _ s2 f2 ⟨rfl, h2⟩
      exact tr_pure f2.inv ⟨trivial, h2 (by simp [hp])⟩
    · exact tr_pure f1.inv trivial

theorem tr_paramSubstWordRaw (hi : T.Inv s) (hn : s.len ≤ n) {curlyPos : SourcePos}
    (hp : T.At .CurlyOpen curlyPos) : T.Tr (paramSubstWordRaw R curlyPos) s (fun _ _ => True) := by
  unfold paramSubstWordRaw
  refine tr_bind (tr_loop hi (Q := fun _ _ => True) (fun _ _ => True) trivial ?_) ?_
  · rintro ws s1 f1 -
    have hl1 := f1.len
    unfold captureWordsBody
    refine tr_bind (tr_captureLiterals f1.inv ws) ?_
    rintro ⟨stop, ws⟩ s2 f2 -
    have hl2 := f2.len
    simp only
    split
    · exact tr_pure f2.inv trivial
    · refine tr_bind (tr_wordRawDelim hR f2.inv (by omega) _) ?_
      rintro a s3 f3 h3
      split
      · have := (h3 _ rfl).2
        exact tr_pure f3.inv ⟨trivial, by omega⟩
      · have := (h3 _ rfl).2
        exact tr_pure f3.inv ⟨trivial, by omega⟩
      · exact tr_pure f3.inv trivial
  · rintro ws s1 f1 -
    refine tr_bind (tr_eatMaybe f1.inv _) ?_
    rintro c s2 f2 -
    split
    · exact tr_pure f2.inv trivial
    · exact tr_fail ⟨f2.k, hp.b⟩

theorem tr_paramSubstBodyRaw (hi : T.Inv s) (hn : s.len ≤ n) (param) {curlyPos : SourcePos}
    (hp : T.At .CurlyOpen curlyPos) : T.Tr (paramSubstBodyRaw R param curlyPos) s (fun _ _ => True) := by
  unfold paramSubstBodyRaw
  refine tr_bind (tr_eatMaybe hi _) ?_
  rintro c s1 f1 -
  have hl1 := f1.len
  rw [tr_getPos]
  refine tr_bind (tr_next f1.inv) ?_
  rintro a s2 f2 ⟨ha, -⟩
  have hl2 := f2.len
  have word := tr_paramSubstWordRaw hR f2.inv (Nat.le_trans hl2 (Nat.le_trans hl1 hn)) hp
  split
  · refine tr_bind word ?_
    rintro w s3 f3 -
    split <;> exact tr_pure f3.inv trivial
  · refine tr_bind word ?_
    rintro w s3 f3 -
    exact tr_pure f3.inv trivial
  · refine tr_bind word ?_
    rintro w s3 f3 -
    split <;> exact tr_pure f3.inv trivial
  · refine tr_bind word ?_
    rintro w s3 f3 -
    exact tr_pure f3.inv trivial
  · exact tr_pure f2.inv trivial
  · exact tr_fail ⟨f2.k, f1.inv.at ha.symm⟩
  · exact tr_fail ⟨f2.k, hp.b⟩

theorem tr_subshellInternal (hi : T.Inv s) (hn : s.len ≤ n) (ok : Bool) :
    T.Tr (subshellInternal R ok) s (fun g s' => s'.len < s.len ∧ (ok = false → NonEmpty g)) := by
  unfold subshellInternal
  rw [tr_getPos]
  refine tr_bind (tr_eat hi _) ?_
  rintro _ s1 f1 ⟨h1, hpk⟩
  have hp := hi.at hpk
  refine tr_bind (hR.group _ s1 f1.inv (by omega)) ?_
  rintro g s2 f2 -
  rw [tr_peek]
  split
  · split
    · rename_i h
      refine tr_bind (tr_next f2.inv) ?_
      rintro _ s3 f3 -
      have := (f2.trans f3).len
      refine tr_pure f3.inv ⟨by omega, ?_⟩
      rintro rfl
      simp at h
      exact h.2
    · exact tr_unexpected f2.inv
  · exact tr_fail ⟨f2.k, hp.b⟩

omit hR in
theorem tr_paramSubstArith (hi : T.Inv s) : T.Tr paramSubstArith s (fun _ _ => True) := by
  unfold paramSubstArith
  refine tr_bind (tr_eat hi _) ?_
  rintro _ s1 f1 -
  refine tr_bind (tr_eat f1.inv _) ?_
  rintro _ s2 f2 -
  refine tr_bind (tr_skipWhitespace f2.inv) ?_
  rintro _ s3 f3 -
  refine tr_bind (Q1 := fun _ _ => True) ?_ ?_
  · rw [tr_peek]
    split
    · exact tr_pure f3.inv trivial
    · refine tr_bind (tr_arithmeticSubstitution f3.inv) ?_
      rintro a s4 f4 -
      exact tr_pure f4.inv trivial
  rintro a s4 f4 -
  refine tr_bind (tr_skipWhitespace f4.inv) ?_
  rintro _ s5 f5 -
  refine tr_bind (tr_eat f5.inv _) ?_
  rintro _ s6 f6 -
  refine tr_bind (tr_skipWhitespace f6.inv) ?_
  rintro _ s7 f7 -
  refine tr_bind (tr_eat f7.inv _) ?_
  rintro _ s8 f8 -
  exact tr_pure f8.inv trivial

theorem tr_paramSubstCurly (hi : T.Inv s) (hn : s.len ≤ n) (param) {curlyPos : SourcePos}
    (hp : T.At .CurlyOpen curlyPos) : T.Tr (paramSubstCurly R curlyPos param) s (fun _ _ => True) := by
  unfold paramSubstCurly
  rw [tr_peek]
  split
  · refine tr_bind (tr_next hi) ?_
    rintro _ s1 f1 -
    refine tr_bind (tr_eatMaybe f1.inv _) ?_
    rintro c s2 f2 -
    have hl := (f1.trans f2).len
    split <;>
    · refine tr_bind (tr_paramSubstWordRaw hR f2.inv (by omega) hp) ?_
      rintro w s3 f3 -
      exact tr_pure f3.inv trivial
  · refine tr_bind (tr_next hi) ?_
    rintro _ s1 f1 -
    refine tr_bind (tr_eatMaybe f1.inv _) ?_
    rintro c s2 f2 -
    have hl := (f1.trans f2).len
    split
    · refine tr_bind (tr_paramSubstWordRaw hR f2.inv (by omega) hp) ?_
      rintro w s3 f3 -
      exact tr_pure f3.inv trivial
    · refine tr_bind (tr_paramSubstWordRaw hR f2.inv (by omega) hp) ?_
      rintro w s3 f3 -
      split <;> exact tr_pure f3.inv trivial
  · split
    · split
      · exact tr_paramSubstBodyRaw hR hi hn _ hp
      · refine tr_bind (tr_parameterInner hi) ?_
        rintro q s1 f1 -
        refine tr_bind (tr_eat f1.inv _) ?_
        rintro _ s2 f2 -
        exact tr_pure f2.inv trivial
    · exact tr_paramSubstBodyRaw hR hi hn _ hp

omit hR in
theorem mpSecondParenOpen_it (m : AMultipeek) : (mpSecondParenOpen (I := AIter) m).2.it = m.it := rfl

theorem tr_parameterSubstitutionRaw (hi : T.Inv s) (hn : s.len ≤ n) :
    T.Tr (parameterSubstitutionRaw R) s (fun _ _ => True) := by
  unfold parameterSubstitutionRaw
  rw [tr_getPos, tr_peek]
  split
  · rw [tr_lookahead (mpSecondParenOpen_it _)]
    split
    · exact tr_paramSubstArith hi
    · refine tr_bind (tr_subshellInternal hR hi hn true) ?_
      rintro g s1 f1 -
      exact tr_pure f1.inv trivial
  · refine tr_bind (tr_next hi) ?_
    rintro _ s1 f1 -
    refine tr_bind (tr_parameterInner f1.inv) ?_
    rintro q s2 f2 -
    have := (f1.trans f2).len
    exact tr_paramSubstCurly hR f2.inv (by omega) q (hi.at (by assumption))
  · exact tr_unexpected hi

/-- `parameter_raw` is well behaved on one more token than the recursion. -/
theorem tr_parameterRaw (hi : T.Inv s) (hn : s.len ≤ n + 1) :
    T.Tr (parameterRaw R) s (fun _ s' => s'.len < s.len) := by
  unfold parameterRaw
  rw [tr_getPos]
  refine tr_bind (tr_next hi) ?_
  rintro a s1 f1 ⟨ha, h1⟩
  split
  · exact tr_pure f1.inv (h1 (by simp))
  · have h1 := h1 (by simp)
    rw [tr_peek]
    split
    · refine tr_bind (tr_parameterInner f1.inv) ?_
      rintro q s2 f2 -
      have := f2.len
      exact tr_pure f2.inv (by omega)
    · split
      · refine (tr_parameterSubstitutionRaw hR f1.inv (by omega)).mono ?_
        rintro q s2 f2 -
        have := f2.len
        omega
      · exact tr_pure f1.inv h1
  · exact tr_fail ⟨f1.k, hi.at ha.symm⟩
  · exact tr_fail (e := .UnexpectedEOF) f1.k

end
end Conch
