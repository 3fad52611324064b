import Verif.Exact
/-!
# Exact results of the blank layer
-/
namespace Conch
open Spec

section
variable {B : Builder} {e : SourcePos} {b : B.State}

/-- Without the whitespace tokens at the start. -/
def dropWs (l : List PTok) : List PTok := l.dropWhile (·.2.isWs)

theorem skipWs_run (l : List PTok) : LoopRun skipWsBody () (st l e b) (.ok (), st (dropWs l) e b) := by
  induction l with
  | nil => exact .done rfl
  | cons x l ih =>
    by_cases h : x.2.isWs = true
    · have : dropWs (x :: l) = dropWs l := by simp [dropWs, h]
      rw [this]
      refine .cont (y := ()) (s1 := st l e b) ?_ (by simp) ih
      unfold skipWsBody; rw [peek_bind]; simp only [List.head?_cons, Option.map_some]
      rw [if_pos h]; rfl
    · have : dropWs (x :: l) = x :: l := by simp [dropWs, h]
      rw [this]
      refine .done ?_
      unfold skipWsBody; rw [peek_bind]; simp only [List.head?_cons, Option.map_some]
      rw [if_neg h]; rfl

theorem mpBackslashNewline_it (m : AMultipeek) : (mpBackslashNewline (I := AIter) m).2.it = m.it := by
  unfold mpBackslashNewline
  simp only [TokStream.mpNext]
  split <;> rfl

theorem mpBackslashNewline_val (it : AIter) (ts : List Token) :
    (mpBackslashNewline (I := AIter) (AMultipeek.mk it ts)).1 = true ↔ ∃ r, ts = .Backslash :: .Newline :: r := by
  unfold mpBackslashNewline
  simp only [TokStream.mpNext]
  match ts with
  | [] => simp
  | t :: ts =>
    by_cases ht : t = .Backslash
    · subst ht
      cases ts <;> simp
    · simp [ht]

theorem skipBody_eq_cont {l r : List PTok} {p q} (h : dropWs l = (p, .Backslash) :: (q, .Newline) :: r) :
    skipWhitespaceBody () (st l e b) = (.ok (.cont ()), st r e b) := by
  unfold skipWhitespaceBody
  rw [bind_ok (skipWs_run l).loop, h, lookahead_bind (mpBackslashNewline_it _)]
  rfl

theorem skipBody_eq_done {l r : List PTok} (h : dropWs l = r)
    (hr : ∀ p q r', r ≠ (p, .Backslash) :: (q, .Newline) :: r') :
    skipWhitespaceBody () (st l e b) = (.ok (.done ()), st r e b) := by
  unfold skipWhitespaceBody
  rw [bind_ok (skipWs_run l).loop, h, lookahead_bind (mpBackslashNewline_it _), if_neg]
  · rfl
  · rw [mpBackslashNewline_val]
    rintro ⟨r', h'⟩
    match r, h' with
    | [], h' => simp at h'
    | [x], h' => simp at h'
    | (p, t) :: (q, u) :: r, h' =>
      simp at h'
      obtain ⟨rfl, rfl, -⟩ := h'
      exact hr _ _ _ rfl

theorem noBlank_dropWs {r : List PTok} (h : NoBlank r) : dropWs r = r := by
  match r, h with
  | [], _ => rfl
  | (p, t) :: r, h =>
    have : t.isWs = false := by
      cases t <;> first | rfl | exact absurd rfl (h.1 _ _ _)
    simp [dropWs, this]

theorem skip_run {bs r : List PTok} (hb : Blanks bs) (hr : NoBlank r) :
    LoopRun skipWhitespaceBody () (st (bs ++ r) e b) (.ok (), st r e b) := by
  induction hb with
  | nil => exact .done (skipBody_eq_done (noBlank_dropWs hr) hr.2)
  | @ws p w bs _ ih =>
    have heq : skipWhitespaceBody () (st ((p, .Whitespace w) :: (bs ++ r)) e b) =
        skipWhitespaceBody () (st (bs ++ r) e b) := by
      unfold skipWhitespaceBody
      rw [bind_ok (skipWs_run _).loop, bind_ok (skipWs_run _).loop]
      rfl
    cases ih with
    | done h => exact .done (heq.trans h)
    | cont h hl hr => exact .cont (heq.trans h) (by simp at hl ⊢; omega) hr
  | @escaped p q bs _ ih =>
    exact .cont (skipBody_eq_cont rfl) (by simp; omega) ih

/-- `skip_whitespace` skips the blanks. -/
theorem skipWhitespace_eq {bs r : List PTok} (hb : Blanks bs) (hr : NoBlank r) :
    skipWhitespace (st (bs ++ r) e b) = (.ok (), st r e b) := (skip_run hb hr).loop

theorem skipWhitespace_noop {r : List PTok} (hr : NoBlank r) :
    skipWhitespace (st r e b) = (.ok (), st r e b) := skipWhitespace_eq .nil hr

theorem blank_split (l : List PTok) : ∃ bs r, l = bs ++ r ∧ Blanks bs ∧ NoBlank r := by
  match l with
  | [] => exact ⟨[], [], rfl, .nil, by simp [NoBlank]⟩
  | (p, t) :: l =>
    by_cases h : ∃ w, t = .Whitespace w
    · obtain ⟨w, rfl⟩ := h
      obtain ⟨bs, r, rfl, h1, h2⟩ := blank_split l
      exact ⟨(p, .Whitespace w) :: bs, r, rfl, .ws h1, h2⟩
    · by_cases h' : ∃ q r, t = .Backslash ∧ l = (q, .Newline) :: r
      · obtain ⟨q, l, rfl, rfl⟩ := h'
        obtain ⟨bs, r, rfl, h1, h2⟩ := blank_split l
        exact ⟨(p, .Backslash) :: (q, .Newline) :: bs, r, rfl, .escaped h1, h2⟩
      · refine ⟨[], _, rfl, .nil, ?_, ?_⟩
        · rintro p w r heq; cases heq; exact h ⟨_, rfl⟩
        · rintro p q r heq; cases heq; exact h' ⟨_, _, rfl, rfl⟩
termination_by l.length
decreasing_by all_goals simp_all; try omega

/-! ## Comments and newlines -/

theorem takeComment_run (cs : List PTok) (hcs : ∀ t ∈ cs, t.2 ≠ .Newline) (acc : List Token) :
    (∀ r rest, LoopRun takeCommentBody acc (st (cs ++ (r, .Newline) :: rest) e b)
      (.ok (acc ++ cs.map (·.2)), st rest e b)) ∧
    LoopRun takeCommentBody acc (st cs e b) (.ok (acc ++ cs.map (·.2)), st [] e b) := by
  induction cs generalizing acc with
  | nil =>
    refine ⟨fun r rest => .done ?_, .done ?_⟩
    · unfold takeCommentBody; rw [List.nil_append, next_bind_cons]; simp [pure_eq]
    · unfold takeCommentBody; rw [next_bind_nil]; simp [pure_eq]
  | cons x cs ih =>
    have hx : x.2 ≠ .Newline := hcs x (by simp)
    have step : ∀ l, takeCommentBody acc (st (x :: l) e b) =
        (.ok (.cont (acc ++ [x.2])), st l e b) := by
      intro l
      obtain ⟨p, t⟩ := x
      cases t <;> first | rfl | exact absurd rfl hx
    obtain ⟨h1, h2⟩ := ih (fun t ht => hcs t (by simp [ht])) (acc ++ [x.2])
    refine ⟨fun r rest => ?_, ?_⟩
    · have := h1 r rest
      rw [List.append_assoc] at this
      exact .cont (step _) (by simp) this
    · rw [List.append_assoc] at h2
      exact .cont (step _) (by simp) h2

theorem noBlank_cons {p : SourcePos} {t : Token} {l : List PTok} (h1 : t.isWs = false)
    (h2 : t ≠ .Backslash) : NoBlank ((p, t) :: l) := by
  constructor
  · rintro _ w _ h; cases h; simp [Token.isWs] at h1
  · rintro _ _ _ h; cases h; exact h2 rfl

theorem newline_eq_line {l rest : List PTok} {n : Nl} (h : Line l n rest) :
    newline (st l e b) = (.ok (some n), st rest e b) := by
  cases h with
  | newline hb =>
    unfold newline
    rw [bind_ok (skipWhitespace_eq hb (noBlank_cons rfl (by simp))), peek_bind]
    rfl
  | @comment bs q cs r rest hb hc =>
    unfold newline
    rw [List.append_assoc, List.cons_append,
      bind_ok (skipWhitespace_eq hb (noBlank_cons rfl (by simp))), peek_bind]
    simp only [List.head?_cons, Option.map_some]
    have := (takeComment_run (e := e) (b := b) ((q, .Pound) :: cs)
      (by simpa using fun a b h => hc (a, b) h) []).1 r rest
    rw [List.cons_append, List.nil_append] at this
    rw [bind_ok this.loop]
    rfl
  | @lastComment bs q cs hb hc =>
    unfold newline
    rw [bind_ok (skipWhitespace_eq hb (noBlank_cons rfl (by simp))), peek_bind]
    simp only [List.head?_cons, Option.map_some]
    have := (takeComment_run (e := e) (b := b) ((q, .Pound) :: cs)
      (by simpa using fun a b h => hc (a, b) h) []).2
    rw [List.nil_append] at this
    rw [bind_ok this.loop]
    rfl

/-- What starts neither with a blank nor with a line. -/
def NoLineStart (l : List PTok) : Prop := ∀ p r, l ≠ (p, .Newline) :: r ∧ l ≠ (p, .Pound) :: r

theorem newline_eq_none {bs r : List PTok} (hb : Blanks bs) (hr : NoBlank r) (hn : NoLineStart r) :
    newline (st (bs ++ r) e b) = (.ok none, st r e b) := by
  unfold newline
  rw [bind_ok (skipWhitespace_eq hb hr), peek_bind]
  cases r with
  | nil => rfl
  | cons x r =>
    obtain ⟨p, t⟩ := x
    cases t <;> first | rfl | exact absurd rfl (hn _ _).2 | exact absurd rfl (hn _ _).1

theorem comment_split (l : List PTok) : (∀ t ∈ l, t.2 ≠ .Newline) ∨
    ∃ cs r rest, l = cs ++ (r, .Newline) :: rest ∧ ∀ t ∈ cs, t.2 ≠ .Newline := by
  induction l with
  | nil => left; simp
  | cons x l ih =>
    obtain ⟨p, t⟩ := x
    by_cases h : t = .Newline
    · subst h; right; exact ⟨[], p, l, rfl, by simp⟩
    · rcases ih with ih | ⟨cs, r, rest, rfl, ih⟩
      · left; intro y hy; rcases List.mem_cons.1 hy with rfl | hy
        · exact h
        · exact ih y hy
      · right
        refine ⟨(p, t) :: cs, r, rest, rfl, ?_⟩
        intro y hy; rcases List.mem_cons.1 hy with rfl | hy
        · exact h
        · exact ih y hy

theorem line_or_not (l : List PTok) : (∃ n rest, Line l n rest) ∨
    ∃ bs r, l = bs ++ r ∧ Blanks bs ∧ NoBlank r ∧ NoLineStart r := by
  obtain ⟨bs, r, rfl, hb, hr⟩ := blank_split l
  by_cases h1 : ∃ p r', r = (p, .Newline) :: r'
  · obtain ⟨p, r', rfl⟩ := h1
    exact .inl ⟨_, _, .newline hb⟩
  by_cases h2 : ∃ p r', r = (p, .Pound) :: r'
  · obtain ⟨p, r', rfl⟩ := h2
    rcases comment_split r' with h | ⟨cs, q, rest, rfl, h⟩
    · exact .inl ⟨_, _, .lastComment hb h⟩
    · left
      have := Line.comment (q := p) (r := q) (rest := rest) hb h
      rw [List.append_assoc, List.cons_append] at this
      exact ⟨_, _, this⟩
  exact .inr ⟨bs, r, rfl, hb, hr, fun p r' => ⟨fun h => h1 ⟨p, r', h⟩, fun h => h2 ⟨p, r', h⟩⟩⟩

theorem Spec.Line.lt {l rest : List PTok} {n : Nl} (h : Line l n rest) : rest.length < l.length := by
  cases h <;> simp <;> omega

theorem linebreak_run {l mid : List PTok} {ns : List Nl} (h : Lines l ns mid) {bs r : List PTok}
    (hm : mid = bs ++ r) (hb : Blanks bs) (hr : NoBlank r) (hn : NoLineStart r) (acc : List Nl) :
    LoopRun linebreakBody acc (st l e b) (.ok (acc ++ ns), st r e b) := by
  induction h generalizing acc with
  | nil =>
    subst hm
    refine .done ?_
    unfold linebreakBody; rw [bind_ok (newline_eq_none hb hr hn)]; simp [pure_eq]
  | @cons l n l' ns rest hl _ ih =>
    have := ih hm (acc ++ [n])
    rw [List.append_assoc] at this
    refine .cont ?_ hl.lt this
    unfold linebreakBody; rw [bind_ok (newline_eq_line hl)]; rfl

theorem linebreak_eq {l bs r : List PTok} {ns : List Nl} (h : Lines l ns (bs ++ r)) (hb : Blanks bs)
    (hr : NoBlank r) (hn : NoLineStart r) :
    linebreak (st l e b) = (.ok ns, st r e b) := (linebreak_run h rfl hb hr hn []).loop

theorem lines_split (l : List PTok) : ∃ ns bs r, Lines l ns (bs ++ r) ∧ Blanks bs ∧ NoBlank r ∧
    NoLineStart r := by
  rcases line_or_not l with ⟨n, rest, h⟩ | ⟨bs, r, rfl, h1, h2, h3⟩
  · have := h.lt
    obtain ⟨ns, bs, r, h1, h2⟩ := lines_split rest
    exact ⟨n :: ns, bs, r, .cons h h1, h2⟩
  · exact ⟨[], bs, r, .nil, h1, h2, h3⟩
termination_by l.length

/-! ## Reserved words and tokens -/

theorem endsWord_nil : EndsWord [] := by intro x r h; simp at h

theorem endsWord_cons {x : PTok} {l : List PTok} :
    EndsWord (x :: l) ↔ x.2.isWordDelimiter = true := by
  constructor
  · intro h; exact h x l rfl
  · rintro h _ _ h'; cases h'; exact h

theorem wordAt_cons {p : SourcePos} {t : Token} {l : List PTok} {w : Str} :
    WordAt ((p, t) :: l) w ↔ (t = .Name w ∨ t = .Literal w) ∧ EndsWord l := by
  constructor
  · rintro ⟨q, r, h | h, h'⟩ <;> cases h <;> simp [h']
  · rintro ⟨rfl | rfl, h⟩
    · exact ⟨p, l, .inl rfl, h⟩
    · exact ⟨p, l, .inr rfl, h⟩

theorem not_wordAt_nil {w : Str} : ¬ WordAt [] w := by
  rintro ⟨q, r, h | h, h'⟩ <;> cases h

theorem mpReservedWord_it (ws : List Str) (m : AMultipeek) :
    (mpReservedWord (I := AIter) ws m).2.it = m.it := by
  obtain ⟨it, l⟩ := m
  unfold mpReservedWord
  rcases l with _ | ⟨t, _ | ⟨u, l⟩⟩ <;> rfl

theorem mpReservedWord_val (ws : List Str) (it : AIter) (l : List PTok) (w : Str) :
    (mpReservedWord (I := AIter) ws (AMultipeek.mk it (l.map (·.2)))).1 = some w ↔
      w ∈ ws ∧ WordAt l w := by
  unfold mpReservedWord
  simp only [TokStream.mpNext]
  rcases l with _ | ⟨⟨p, t⟩, _ | ⟨x, l⟩⟩
  · simp [not_wordAt_nil]
  · rw [wordAt_cons]
    cases t <;> simp [endsWord_nil] <;> grind
  · rw [wordAt_cons, endsWord_cons]
    by_cases hd : x.2.isWordDelimiter = true
    · cases t <;> simp [hd] <;> grind
    · simp [hd]

theorem peekReservedWord_eq {ws : List Str} {bs r : List PTok} (hne : ws ≠ []) (hb : Blanks bs)
    (hr : NoBlank r) :
    peekReservedWord ws (st (bs ++ r) e b) =
      (.ok (mpReservedWord (I := AIter) ws (AMultipeek.mk ⟨r, e⟩ (r.map (·.2)))).1, st r e b) := by
  unfold peekReservedWord
  rw [if_neg (by simpa using hne), bind_ok (skipWhitespace_eq hb hr)]
  unfold lookahead
  show (_, PSt.mk (mpReservedWord (I := AIter) ws (AMultipeek.mk ⟨r, e⟩ (r.map (·.2)))).2.it b) = _
  rw [mpReservedWord_it]
  rfl

theorem peekReservedWord_some {ws : List Str} {bs r : List PTok} {w : Str} (hb : Blanks bs)
    (hr : NoBlank r) (h : w ∈ ws) (hw : WordAt r w) :
    peekReservedWord ws (st (bs ++ r) e b) = (.ok (some w), st r e b) := by
  rw [peekReservedWord_eq (by rintro rfl; simp at h) hb hr,
    (mpReservedWord_val ws _ r w).2 ⟨h, hw⟩]

theorem peekReservedWord_none {ws : List Str} {bs r : List PTok} (hne : ws ≠ []) (hb : Blanks bs)
    (hr : NoBlank r) (h : ∀ w ∈ ws, ¬ WordAt r w) :
    peekReservedWord ws (st (bs ++ r) e b) = (.ok none, st r e b) := by
  rw [peekReservedWord_eq hne hb hr]
  cases h' : (mpReservedWord (I := AIter) ws (AMultipeek.mk ⟨r, e⟩ (r.map (·.2)))).1 with
  | none => rfl
  | some w =>
    obtain ⟨h1, h2⟩ := (mpReservedWord_val ws _ r w).1 h'
    exact absurd h2 (h w h1)

theorem tokenAt_cons {p : SourcePos} {t u : Token} {l : List PTok} :
    TokenAt ((p, t) :: l) u ↔ t = u ∧ EndsWord l := by
  constructor
  · rintro ⟨q, r, h, h'⟩; cases h; exact ⟨rfl, h'⟩
  · rintro ⟨rfl, h⟩; exact ⟨p, l, rfl, h⟩

theorem mpReservedToken_it (ts : List Token) (m : AMultipeek) :
    (mpReservedToken (I := AIter) ts m).2.it = m.it := by
  obtain ⟨it, l⟩ := m
  unfold mpReservedToken
  simp only [TokStream.mpNext]
  rcases l with _ | ⟨t, _ | ⟨u, l⟩⟩
  · rfl
  · simp only [List.head?_cons, List.tail_cons]; split <;> rfl
  · simp only [List.head?_cons, List.tail_cons]; split <;> rfl

theorem mpReservedToken_val (ts : List Token) (it : AIter) (l : List PTok) (t : Token) :
    (mpReservedToken (I := AIter) ts (AMultipeek.mk it (l.map (·.2)))).1 = some (some t) ↔
      t ∈ ts ∧ TokenAt l t := by
  unfold mpReservedToken
  simp only [TokStream.mpNext]
  rcases l with _ | ⟨⟨p, u⟩, _ | ⟨x, l⟩⟩
  · simp [TokenAt]
  · rw [tokenAt_cons]
    by_cases hu : u ∈ ts <;> simp [hu, endsWord_nil] <;> grind
  · rw [tokenAt_cons, endsWord_cons]
    by_cases hu : u ∈ ts <;> by_cases hd : x.2.isWordDelimiter = true <;> simp [hu, hd] <;> grind

theorem lookahead_eq {α : Type} {g : TokStream.MP AIter → α × TokStream.MP AIter} {l : List PTok}
    (h : (g ⟨⟨l, e⟩, l.map (·.2)⟩).2.it = ⟨l, e⟩) :
    (lookahead g : P AIter B α) (st l e b) = (.ok (g ⟨⟨l, e⟩, l.map (·.2)⟩).1, st l e b) := by
  show (_, PSt.mk (g ⟨⟨l, e⟩, l.map (·.2)⟩).2.it b) = _
  rw [h]
  rfl

/-- `peek_reserved_token` for tokens that are not whitespace. -/
theorem peekReservedToken_some {ts : List Token} {bs r : List PTok} {t : Token}
    (hws : ∀ u ∈ ts, u.isWs = false) (hb : Blanks bs) (hr : NoBlank r) (h : t ∈ ts)
    (ht : TokenAt r t) :
    peekReservedToken ts (st (bs ++ r) e b) = (.ok (some t), st r e b) := by
  unfold peekReservedToken
  rw [if_neg (by simp; rintro rfl; simp at h), if_neg (by simpa using hws),
    bind_ok (skipWhitespace_eq hb hr)]
  unfold peekReservedTokenTries
  rw [bind_ok (lookahead_eq (mpReservedToken_it ts _)), (mpReservedToken_val ts _ r t).2 ⟨h, ht⟩]
  rfl

theorem peekReservedToken_none {ts : List Token} {bs r : List PTok} (hne : ts ≠ [])
    (hws : ∀ u ∈ ts, u.isWs = false) (hb : Blanks bs) (hr : NoBlank r)
    (h : ∀ t ∈ ts, ¬ TokenAt r t) :
    peekReservedToken ts (st (bs ++ r) e b) = (.ok none, st r e b) := by
  unfold peekReservedToken
  rw [if_neg (by simpa using hne), if_neg (by simpa using hws), bind_ok (skipWhitespace_eq hb hr)]
  unfold peekReservedTokenTries
  rw [bind_ok (lookahead_eq (mpReservedToken_it ts _))]
  cases h' : (mpReservedToken (I := AIter) ts (AMultipeek.mk ⟨r, e⟩ (r.map (·.2)))).1 with
  | none =>
    show (skipWhitespace >>= fun _ => peekReservedTokenTries ts 0) _ = _
    rw [bind_ok (skipWhitespace_noop hr)]
    rfl
  | some o =>
    cases o with
    | none => rfl
    | some t =>
      obtain ⟨h1, h2⟩ := (mpReservedToken_val ts _ r t).1 h'
      exact absurd h2 (h t h1)

end
end Conch
