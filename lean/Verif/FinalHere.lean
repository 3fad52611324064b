import Verif.FinalCmd
/-!
# Errors that no continuation can repair: here-documents
-/
namespace Conch
open Spec
namespace Final
set_option maxRecDepth 4000

variable {α β σ : Type}

theorem stuck_bind {m : Q α} {f : α → Q β} {s : S} (h : Stuck (m s).1) : Stuck ((m >>= f) s).1 := by
  show Stuck (P.bind m f s).1
  unfold P.bind
  generalize m s = z at h
  obtain ⟨z, s⟩ := z
  cases z with
  | ok _ => exact h.elim
  | err _ => exact h.elim
  | panic _ => trivial
  | fuel => trivial

/-! ## The delimiter -/

/-- All errors of a program may be due to the end of its stream. -/
def SoftErr (m : Q α) : Prop := ∀ s e s', m s = (.err e, s') → Soft e

theorem se_bind {m : Q α} {f : α → Q β} (h : SoftErr m) (hf : ∀ a, SoftErr (f a)) : SoftErr (m >>= f) := by
  intro s e s' he
  change P.bind m f s = _ at he
  unfold P.bind at he
  generalize hz : m s = z at he
  obtain ⟨r, s1⟩ := z
  cases r with
  | ok a => exact hf a _ _ _ he
  | err e' => cases he; exact h _ _ _ hz
  | panic n => simp at he
  | fuel => simp at he

theorem se_pure {a : α} : SoftErr (pure a : Q α) := fun _ _ _ h => by cases h
theorem se_getPos : SoftErr (getPos : Q _) := fun _ _ _ h => by cases h
theorem se_next : SoftErr (next : Q _) := fun _ _ _ h => by cases h

theorem se_scan {f : AIter → Collected × AIter} : SoftErr (scan f : Q _) := by
  intro s e s' h
  unfold scan at h
  generalize f s.it = z at h
  obtain ⟨r, it⟩ := z
  cases r with
  | ok ts => cases h
  | unmatched er => cases h; trivial
  | fuel => cases h

theorem se_loop {body : σ → Q (Step σ α)} {x : σ} (h : ∀ x, SoftErr (body x)) : SoftErr (loop body x) := by
  have key : ∀ n x, SoftErr (loopN body n x) := by
    intro n
    induction n with
    | zero => intro x s e s' h; cases h
    | succ n ih =>
      intro x
      refine se_bind (h x) fun r => ?_
      cases r with
      | cont y => exact ih y
      | done a => exact se_pure
  exact fun s => key _ x s

theorem se_delimBody {st : Bool × Str} : SoftErr (loop delimBody st : Q _) := by
  refine se_loop fun x => ?_
  unfold delimBody
  refine se_bind se_getPos fun start => se_bind se_next fun t => ?_
  split <;> first
    | exact se_pure
    | exact se_bind se_scan fun _ => se_pure
    | (refine se_bind se_next fun t => ?_
       split <;> exact se_pure)

theorem ex_restore {m : Q α} {sub : AIter} (h : SoftErr m) : Ex (withIterRestore sub m) (withIterRestore sub m) := by
  refine .one (fun s1 s2 a s2' hl e => ?_) fun s hd => ?_
  · obtain ⟨h1, rfl⟩ := restore_ok e
    rw [restore_run h1]
    exact .inl ⟨rfl, hl⟩
  · rw [restore_run rfl]
    have h1 := h ⟨sub, ()⟩
    generalize m ⟨sub, ()⟩ = z at h1
    obtain ⟨r, s1⟩ := z
    cases r with
    | ok a => exact hd
    | err e => exact ⟨hd, h1 e s1 rfl⟩
    | panic n => trivial
    | fuel => trivial

theorem ex_heredocDelim : Ex (heredocDelim : Q _) heredocDelim := by
  unfold heredocDelim
  refine ex_bind (ex_loop fun _ => ?_) fun ts => ex_bind (ex_restore se_delimBody) fun st => ?_
  · unfold delimTokensBody
    ex
  · ex
macro_rules | `(tactic| ex_lemma) => `(tactic| exact ex_heredocDelim)

/-! ## The rest of the line -/

theorem loopN_ok {body : σ → Q (Step σ α)} {n : Nat} {x : σ} {s s' : S} {a : α}
    (h : loopN body n x s = (.ok a, s')) : ∃ k r s1, n = k + 1 ∧ body x s = (.ok r, s1) ∧
      ((∃ y, r = .cont y ∧ loopN body k y s1 = (.ok a, s')) ∨ (r = .done a ∧ s1 = s')) := by
  cases n with
  | zero => cases h
  | succ n =>
    obtain ⟨r, s1, h1, h2⟩ := ok_bind h
    refine ⟨n, r, s1, rfl, h1, ?_⟩
    cases r with
    | cont y => exact .inl ⟨y, rfl, h2⟩
    | done b => cases h2; exact .inr ⟨rfl, rfl⟩

theorem loopN_cont {body : σ → Q (Step σ α)} {n : Nat} {x y : σ} {s s1 : S} (h : body x s = (.ok (.cont y), s1)) :
    loopN body (n + 1) x s = loopN body n y s1 := by
  show (body x >>= _) s = _
  rw [bind_ok h]

theorem loopN_done {body : σ → Q (Step σ α)} {n : Nat} {x : σ} {a : α} {s s1 : S} (h : body x s = (.ok (.done a), s1)) :
    loopN body (n + 1) x s = (.ok a, s1) := by
  show (body x >>= _) s = _
  rw [bind_ok h]
  rfl

theorem loopN_err {body : σ → Q (Step σ α)} {n : Nat} {x : σ} {e} {s s1 : S} (h : body x s = (.err e, s1)) :
    loopN body (n + 1) x s = (.err e, s1) := by
  show P.bind (body x) _ s = _
  simp [P.bind, h]

/-- The last token is a newline. -/
def EndsNl (l : List Token) : Prop := ∃ v, l = v ++ [.Newline]

theorem save_nil (acc : List Token) (e : SourcePos) (b : Unit) :
    saveLineBody acc (⟨⟨[], e⟩, b⟩ : S) = (.ok (.done acc), ⟨⟨[], e⟩, b⟩) := rfl

theorem save_newline (acc : List Token) (p : SourcePos) (l : List PTok) (e : SourcePos) (b : Unit) :
    saveLineBody acc (⟨⟨(p, .Newline) :: l, e⟩, b⟩ : S) = (.ok (.done (acc ++ [.Newline])), ⟨⟨l, e⟩, b⟩) := rfl

theorem save_scan (acc : List Token) (p : SourcePos) (t : Token) (l : List PTok) (e : SourcePos) (b : Unit) (h : t ≠ .Newline) :
    saveLineBody acc (⟨⟨(p, t) :: l, e⟩, b⟩ : S) =
      (scan takeBalanced >>= fun ts => pure (.cont (acc ++ ts)) : Q _) ⟨⟨(p, t) :: l, e⟩, b⟩ := by
  unfold saveLineBody
  cases t <;> first | rfl | exact absurd rfl h

theorem save_unit (acc : List Token) {p : SourcePos} {t : Token} {l u r : List PTok} (e : SourcePos) (b : Unit) (h : t ≠ .Newline)
    (hl : (p, t) :: l = u ++ r) (hu : TopUnit u r) :
    saveLineBody acc (⟨⟨(p, t) :: l, e⟩, b⟩ : S) = (.ok (.cont (acc ++ u.map (·.2))), ⟨⟨r, e⟩, b⟩) := by
  rw [save_scan acc p t l e b h]
  have h1 : (scan takeBalanced : Q _) ⟨⟨(p, t) :: l, e⟩, b⟩ = (.ok (u.map (·.2)), ⟨⟨r, e⟩, b⟩) := by
    rw [hl]
    unfold scan
    simp only [takeBalanced_unit hu]
    rfl
  rw [bind_ok h1]
  rfl

theorem save_unclosed (acc : List Token) {p : SourcePos} {t : Token} {l : List PTok} {er} (e : SourcePos) (b : Unit) (h : t ≠ .Newline)
    (hu : TopUnclosed ((p, t) :: l) er) :
    saveLineBody acc (⟨⟨(p, t) :: l, e⟩, b⟩ : S) = (.err (.Unmatched er.tok er.pos), ⟨⟨[], e⟩, b⟩) := by
  rw [save_scan acc p t l e b h]
  show P.bind _ _ _ = _
  unfold P.bind scan
  simp only [takeBalanced_unclosed hu]
  rfl

/-- The saved tokens only grow. -/
theorem save_grows (n : Nat) : ∀ (acc : List Token) (s s' : S) (ts), loopN saveLineBody n acc s = (.ok ts, s') → ∃ z, ts = acc ++ z := by
  induction n with
  | zero => intro acc s s' ts h; cases h
  | succ n ih =>
    intro acc s s' ts h
    obtain ⟨k, r, s1, hk, h1, h2⟩ := loopN_ok h
    cases hk
    obtain ⟨⟨l, e⟩, b⟩ := s
    cases l with
    | nil =>
      rw [save_nil] at h1
      cases h1
      rcases h2 with ⟨y, h2, -⟩ | ⟨h2, -⟩
      · cases h2
      · cases h2; exact ⟨[], by simp⟩
    | cons x l =>
      obtain ⟨p, t⟩ := x
      by_cases ht : t = .Newline
      · subst ht
        rw [save_newline] at h1
        cases h1
        rcases h2 with ⟨y, h2, -⟩ | ⟨h2, -⟩
        · cases h2
        · cases h2; exact ⟨_, rfl⟩
      · rw [save_scan acc p t l e b ht] at h1
        obtain ⟨u, s2, -, h3⟩ := ok_bind h1
        cases h3
        rcases h2 with ⟨y, h2, h4⟩ | ⟨h2, -⟩
        · cases h2
          obtain ⟨z, hz⟩ := ih _ _ _ _ h4
          exact ⟨u ++ z, by simp [hz]⟩
        · cases h2

/-- Outcomes of the first run's search for the end of the line, when the second one saves `ts`. -/
def OutSave (y : List PTok) (ts : List Token) (s2 : S) : Res Empty (List Token) × S → Prop
  | (.ok ts1, s1) => EndsNl ts1 ∧
      ((ts1 = ts ∧ s2.it.rest = s1.it.rest ++ y ∧ Whole s1.it.rest) ∨ (s1.it.rest = [] ∧ ∃ z, ts = ts1 ++ z))
  | (.err e, s1) => Dead s1 ∧ Soft e
  | _ => True

theorem whole_end {u : List PTok} (h : Whole u) : EndsNl (u.map (·.2)) := by
  obtain ⟨v, p, rfl⟩ := h
  exact ⟨v.map (·.2), by simp⟩

theorem EndsNl.append {l : List Token} (h : EndsNl l) (v : List Token) : EndsNl (v ++ l) := by
  obtain ⟨w, rfl⟩ := h
  exact ⟨v ++ w, by simp⟩

theorem saveLine (n : Nat) : ∀ (m : Nat) (acc : List Token) (l y : List PTok) (e1 e2 : SourcePos) (s2' : S) (ts : List Token),
    Whole l ∨ (l = [] ∧ EndsNl acc) →
    loopN saveLineBody m acc (⟨⟨l ++ y, e2⟩, ()⟩ : S) = (.ok ts, s2') →
    OutSave y ts s2' (loopN saveLineBody n acc (⟨⟨l, e1⟩, ()⟩ : S)) := by
  induction n with
  | zero => intros; trivial
  | succ n ih =>
    intro m acc l y e1 e2 s2' ts hw h
    rcases hw with hw | ⟨rfl, hw⟩
    · obtain ⟨k, r, s1, rfl, h1, h2⟩ := loopN_ok h
      cases l with
      | nil => exact absurd rfl hw.ne
      | cons x l =>
        obtain ⟨p, t⟩ := x
        by_cases ht : t = .Newline
        · subst ht
          rw [loopN_done (save_newline acc p l e1 ())]
          rw [List.cons_append, save_newline] at h1
          cases h1
          rcases h2 with ⟨y, h2, -⟩ | ⟨h2, h3⟩
          · cases h2
          · cases h2; cases h3
            refine ⟨⟨acc, rfl⟩, ?_⟩
            rcases whole_suffix (u := [(p, .Newline)]) hw with h5 | rfl
            · exact .inl ⟨rfl, rfl, h5⟩
            · exact .inr ⟨rfl, [], by simp⟩
        · rcases unit_or_unclosed ((p, t) :: l) with ⟨u, r', hu1, hu⟩ | ⟨er, hu⟩
          · rw [loopN_cont (save_unit acc e1 () ht hu1 hu)]
            rw [List.cons_append, save_unit acc (r := r' ++ y) (u := u) e2 () ht
              (by rw [← List.cons_append, hu1]; simp) (unit_append hu (hu1 ▸ hw) y)] at h1
            cases h1
            rcases h2 with ⟨z, h2, h3⟩ | ⟨h2, -⟩
            · cases h2
              refine ih k _ r' y e1 e2 s2' ts ?_ h3
              rw [hu1] at hw
              rcases whole_suffix hw with h5 | rfl
              · exact .inl h5
              · rw [List.append_nil] at hw
                exact .inr ⟨rfl, (whole_end hw).append _⟩
            · cases h2
          · rw [loopN_err (save_unclosed acc e1 () ht hu)]
            exact ⟨by unfold Dead; rfl, trivial⟩
    · rw [loopN_done (save_nil acc e1 ())]
      exact ⟨hw, .inr ⟨rfl, save_grows _ _ _ _ _ h⟩⟩

/-! ## The body -/

theorem tail_whole {x : PTok} {r : List PTok} (h : Whole (x :: r)) (hx : x.2 ≠ .Newline) : Whole r := by
  rcases whole_suffix (u := [x]) h with h1 | rfl
  · exact h1
  · obtain ⟨v, p, hv⟩ := h
    cases v with
    | nil => cases hv; exact absurd rfl hx
    | cons a v => simp at hv

/-- What one step of a line does. -/
def lineNext (d : Str) (line : List Token × SourcePos) (t : Token) :
    Step (List Token × SourcePos) (Option (List Token × SourcePos)) :=
  if t = .Newline then
    if isDelimLine d line.1 then .done none else .done (some (line.1 ++ [.Newline], line.2))
  else .cont (line.1 ++ [t], line.2)

theorem line_next (d : Str) (line : List Token × SourcePos) (p : SourcePos) (t : Token) (r : List PTok) (e : SourcePos) :
    heredocLineBody false d line (⟨⟨(p, t) :: r, e⟩, ()⟩ : S) = (.ok (lineNext d line t), ⟨⟨r, e⟩, ()⟩) := by
  by_cases h : t = .Newline
  · subst h
    unfold heredocLineBody lineNext
    simp only [if_true]
    show (if isDelimLine d line.1 then _ else _ : Q _) _ = _
    split <;> rfl
  · have : lineNext d line t = .cont (line.1 ++ [t], line.2) := by simp [lineNext, h]
    rw [this]
    cases t <;> first | rfl | exact absurd rfl h

/-- The line after tab stripping. -/
def stripped (w : Str) (line : List Token × SourcePos) : List Token × SourcePos :=
  (if (w.dropWhile (· = '\t')).isEmpty then line.1 else line.1 ++ [.Whitespace (w.dropWhile (· = '\t'))],
      line.2.advanceTabs (Str.byteLen w - Str.byteLen (w.dropWhile (· = '\t'))))

theorem line_strip (d : Str) (line : List Token × SourcePos) (p : SourcePos) (w : Str) (r : List PTok) (e : SourcePos) :
    heredocLineBody true d line (⟨⟨(p, .Whitespace w) :: r, e⟩, ()⟩ : S) =
      heredocLineBody false d (stripped w line) ⟨⟨r, e⟩, ()⟩ := rfl

theorem line_keep (d : Str) (line : List Token × SourcePos) (p : SourcePos) (t : Token) (r : List PTok) (e : SourcePos)
    (h : ∀ w, t ≠ .Whitespace w) : heredocLineBody true d line (⟨⟨(p, t) :: r, e⟩, ()⟩ : S) =
      heredocLineBody false d line ⟨⟨(p, t) :: r, e⟩, ()⟩ := by
  cases t <;> first | rfl | exact absurd rfl (h _)

theorem line_step (strip : Bool) (d : Str) (line : List Token × SourcePos) {r : List PTok} (hw : Whole r) :
    ∃ l' t r', (∀ e y, heredocLineBody strip d line (⟨⟨r ++ y, e⟩, ()⟩ : S) = (.ok (lineNext d l' t), ⟨⟨r' ++ y, e⟩, ()⟩)) ∧
      r'.length < r.length ∧ (Whole r' ∨ r' = [] ∧ t = .Newline) := by
  have base : ∀ (line : List Token × SourcePos) {r : List PTok} (_ : Whole r), ∃ l' t r',
      (∀ e y, heredocLineBody false d line (⟨⟨r ++ y, e⟩, ()⟩ : S) = (.ok (lineNext d l' t), ⟨⟨r' ++ y, e⟩, ()⟩)) ∧
      r'.length < r.length ∧ (Whole r' ∨ r' = [] ∧ t = .Newline) := by
    intro line r hw
    cases r with
    | nil => exact absurd rfl hw.ne
    | cons x r =>
      obtain ⟨p, t⟩ := x
      refine ⟨line, t, r, fun e y => line_next d line p t (r ++ y) e, by simp, ?_⟩
      by_cases ht : t = .Newline
      · rcases whole_suffix (u := [(p, t)]) hw with h | h
        · exact .inl h
        · exact .inr ⟨h, ht⟩
      · exact .inl (tail_whole hw ht)
  cases strip with
  | false => exact base line hw
  | true =>
    cases r with
    | nil => exact absurd rfl hw.ne
    | cons x r =>
      obtain ⟨p, t⟩ := x
      by_cases ht : ∃ w, t = .Whitespace w
      · obtain ⟨w, rfl⟩ := ht
        obtain ⟨l', t, r', h1, h2, h3⟩ := base (stripped w line) (tail_whole hw (by simp))
        exact ⟨l', t, r', fun e y => h1 e y, by simp; omega, h3⟩
      · obtain ⟨l', t', r', h1, h2, h3⟩ := base line hw
        refine ⟨l', t', r', fun e y => ?_, h2, h3⟩
        rw [← h1 e y]
        exact line_keep d line p t (r ++ y) e fun w hw => ht ⟨w, hw⟩

theorem line_loop (strip : Bool) (d : Str) (k : Nat) : ∀ (line : List Token × SourcePos) (r : List PTok), r.length < k → Whole r →
    ∃ o r', (∀ e y n, loopN (heredocLineBody strip d) n line (⟨⟨r ++ y, e⟩, ()⟩ : S) = (.ok o, ⟨⟨r' ++ y, e⟩, ()⟩) ∨
        Stuck (loopN (heredocLineBody strip d) n line (⟨⟨r ++ y, e⟩, ()⟩ : S)).1) ∧
      (Whole r' ∨ r' = []) ∧ ∀ l', o = some l' → EndsNl l'.1 := by
  induction k with
  | zero => intro line r h; omega
  | succ k ih =>
    intro line r hk hw
    obtain ⟨l', t, r', h1, h2, h3⟩ := line_step strip d line hw
    by_cases ht : t = .Newline
    · subst ht
      by_cases hd : isDelimLine d l'.1 = true
      · have : lineNext d l' .Newline = .done none := by simp [lineNext, hd]
        refine ⟨none, r', fun e y n => ?_, h3.imp_right (·.1), by simp⟩
        cases n with
        | zero => exact .inr trivial
        | succ n => rw [loopN_done ((h1 e y).trans (by rw [this]))]; exact .inl rfl
      · have : lineNext d l' .Newline = .done (some (l'.1 ++ [.Newline], l'.2)) := by simp [lineNext, hd]
        refine ⟨some (l'.1 ++ [.Newline], l'.2), r', fun e y n => ?_, h3.imp_right (·.1), ?_⟩
        · cases n with
          | zero => exact .inr trivial
          | succ n => rw [loopN_done ((h1 e y).trans (by rw [this]))]; exact .inl rfl
        · intro l2 h; cases h; exact ⟨_, rfl⟩
    · have : lineNext d l' t = .cont (l'.1 ++ [t], l'.2) := by simp [lineNext, ht]
      have hw' : Whole r' := h3.resolve_right fun h => ht h.2
      obtain ⟨o, r2, h4, h5⟩ := ih (l'.1 ++ [t], l'.2) r' (by omega) hw'
      refine ⟨o, r2, fun e y n => ?_, h5⟩
      cases n with
      | zero => exact .inr trivial
      | succ n => rw [loopN_cont ((h1 e y).trans (by rw [this]))]; exact h4 e y n

/-- One line of the body. -/
theorem body_step (strip : Bool) (d : Str) (acc : List (List Token × SourcePos)) {r : List PTok} (hw : Whole r) :
    ∃ st r', (∀ e y, heredocBody strip d acc (⟨⟨r ++ y, e⟩, ()⟩ : S) = (.ok st, ⟨⟨r' ++ y, e⟩, ()⟩) ∨
        Stuck (heredocBody strip d acc (⟨⟨r ++ y, e⟩, ()⟩ : S)).1) ∧
      (Whole r' ∨ r' = []) ∧ (st = .done acc ∨ ∃ l', EndsNl l'.1 ∧ st = .cont (acc ++ [l'])) := by
  obtain ⟨o, r', h1, h2, h3⟩ := line_loop strip d _ ([], AIter.pos ⟨r, .new⟩) r (Nat.lt_succ_self _) hw
  refine ⟨match o with | none => .done acc | some l => .cont (acc ++ [l]), r', fun e y => ?_, h2, ?_⟩
  · have hp : AIter.pos ⟨r ++ y, e⟩ = AIter.pos ⟨r, .new⟩ := pos_pair hw.ne y
    have h4 := h1 e y (TokStream.len (⟨r ++ y, e⟩ : AIter) + 2)
    rw [← hp] at h4
    unfold heredocBody
    rw [show (⟨⟨r ++ y, e⟩, ()⟩ : S) = st (r ++ y) e () from rfl, getPos_bind]
    rcases h4 with h4 | h4
    · rw [bind_ok (m := loop (heredocLineBody strip d) ([], AIter.pos ⟨r ++ y, e⟩)) h4]
      cases o <;> exact .inl rfl
    · refine .inr ?_
      exact stuck_bind (m := loop (heredocLineBody strip d) ([], AIter.pos ⟨r ++ y, e⟩)) h4
  · cases o with
    | none => exact .inl rfl
    | some l => exact .inr ⟨l, h3 l rfl, rfl⟩

theorem body_nil (strip : Bool) (d : Str) (acc : List (List Token × SourcePos)) (e : SourcePos) :
    heredocBody strip d acc (⟨⟨[], e⟩, ()⟩ : S) = (.ok (.done acc), ⟨⟨[], e⟩, ()⟩) := by
  cases strip <;> rfl

/-- The lines only grow. -/
theorem body_grows (strip : Bool) (d : Str) (n : Nat) : ∀ (acc : List (List Token × SourcePos)) (s s' : S) (ls),
    loopN (heredocBody strip d) n acc s = (.ok ls, s') → ∃ z, ls = acc ++ z := by
  induction n with
  | zero => intro acc s s' ts h; cases h
  | succ n ih =>
    intro acc s s' ls h
    obtain ⟨k, r, s1, hk, h1, h2⟩ := loopN_ok h
    cases hk
    unfold heredocBody at h1
    obtain ⟨p, s2, -, h1⟩ := ok_bind h1
    obtain ⟨o, s3, -, h1⟩ := ok_bind h1
    cases o with
    | none =>
      cases h1
      rcases h2 with ⟨y, h2, -⟩ | ⟨h2, -⟩
      · cases h2
      · cases h2; exact ⟨[], by simp⟩
    | some l =>
      cases h1
      rcases h2 with ⟨y, h2, h4⟩ | ⟨h2, -⟩
      · cases h2
        obtain ⟨z, hz⟩ := ih _ _ _ _ h4
        exact ⟨l :: z, by simp [hz]⟩
      · cases h2

/-- Outcomes of the first run's search for the delimiter, when the second one collects `ls`. -/
def OutBody (y : List PTok) (ls : List (List Token × SourcePos)) (s2 : S) :
    Res Empty (List (List Token × SourcePos)) × S → Prop
  | (.ok ls1, s1) => (∀ l ∈ ls1, EndsNl l.1) ∧
      ((ls1 = ls ∧ s2.it.rest = s1.it.rest ++ y ∧ (Whole s1.it.rest ∨ s1.it.rest = [])) ∨
        (s1.it.rest = [] ∧ ∃ z, ls = ls1 ++ z))
  | (.err _, _) => False
  | _ => True

theorem Stuck.outBody {z : Res Empty (List (List Token × SourcePos)) × S} (h : Stuck z.1) {y ls} {s2 : S} : OutBody y ls s2 z := by
  obtain ⟨r, s⟩ := z
  cases r with
  | ok a => exact h.elim
  | err e => exact h.elim
  | panic => trivial
  | fuel => trivial

theorem bodyLines (strip : Bool) (d : Str) (n : Nat) : ∀ (m : Nat) (acc : List (List Token × SourcePos)) (l y : List PTok)
    (e1 e2 : SourcePos) (s2' : S) (ls : List (List Token × SourcePos)),
    (Whole l ∨ l = []) → (∀ l ∈ acc, EndsNl l.1) →
    loopN (heredocBody strip d) m acc (⟨⟨l ++ y, e2⟩, ()⟩ : S) = (.ok ls, s2') →
    OutBody y ls s2' (loopN (heredocBody strip d) n acc (⟨⟨l, e1⟩, ()⟩ : S)) := by
  induction n with
  | zero => intros; trivial
  | succ n ih =>
    intro m acc l y e1 e2 s2' ls hw ha h
    rcases hw with hw | rfl
    · obtain ⟨k, r, s1, rfl, h1, h2⟩ := loopN_ok h
      obtain ⟨st, r', h3, h4, h5⟩ := body_step strip d acc hw
      have e1' := h3 e1 []
      simp only [List.append_nil] at e1'
      have e2' : (r, s1) = (st, (⟨⟨r' ++ y, e2⟩, ()⟩ : S)) := by
        rcases h3 e2 y with h6 | h6
        · rw [h6] at h1; cases h1; rfl
        · rw [h1] at h6; exact h6.elim
      cases e2'
      rcases e1' with e1' | e1'
      · rcases h5 with rfl | ⟨l', hl', rfl⟩
        · rw [loopN_done e1']
          rcases h2 with ⟨_, h2, -⟩ | ⟨h2, h6⟩
          · cases h2
          · cases h2; subst h6
            exact ⟨ha, .inl ⟨rfl, rfl, h4⟩⟩
        · rw [loopN_cont e1']
          rcases h2 with ⟨_, h2, h6⟩ | ⟨h2, -⟩
          · cases h2
            refine ih k _ r' y e1 e2 s2' ls h4 ?_ h6
            intro l hl
            rcases List.mem_append.1 hl with hl | hl
            · exact ha l hl
            · cases List.mem_singleton.1 hl; exact hl'
          · cases h2
      · exact Stuck.outBody (stuck_bind e1')
    · rw [loopN_done (body_nil strip d acc e1)]
      exact ⟨ha, .inr ⟨rfl, body_grows _ _ _ _ _ _ _ h⟩⟩

/-! ## The whole redirection -/

/-- The last part of `redirectHeredoc`: the body becomes a word. -/
def hereEnd (R : Rec AIter EmptyBuilder) (fd : Option Nat) (quoted : Bool) (lines : List (List Token × SourcePos)) (start : SourcePos) : Q Unit := do
  let body ← (if quoted then
      pure (.Single (.Simple (.Literal (concatTokens (lines.flatMap (·.1))))))
    else do
      let sub := lines.foldr (fun c it => TokStream.bufferFirst it c.1 c.2)
        (TokStream.withPosition (I := AIter) start)
      let body ← withIter sub (wordInterpolatedRaw R none start)
      pure (heredocWord body) : Q (ComplexWordKind Unit))
  let w ← call (B := EmptyBuilder) (.word body)
  call (B := EmptyBuilder) (.redirect (.Heredoc fd w))

/-- `redirectHeredoc` after the delimiter. -/
def hereRest (R : Rec AIter EmptyBuilder) (fd : Option Nat) (strip quoted : Bool) (delim : Str) : Q Unit := do
  let savedPos ← getPos
  let saved ← loop saveLineBody []
  let start ← getPos
  let lines ← loop (heredocBody strip delim) []
  bufferFirst saved savedPos
  hereEnd R fd quoted lines start

theorem heredoc_eq (R : Rec AIter EmptyBuilder) (fd : Option Nat) : redirectHeredoc R fd = (do
    let strip ← (do
      if ← eatMaybe .DLess then pure false
      else if ← eatMaybe .DLessDash then pure true
      else unexpected : Q Bool)
    skipWhitespace
    let (quoted, delim) ← heredocDelim
    hereRest R fd strip quoted delim : Q Unit) := rfl

/-- The nested parse of a body goes well, or fails because the body is used up. -/
def Fine : Res Empty α × S → Prop
  | (.err e, s) => Dead s ∧ Soft e
  | _ => True

theorem DeadOut.fine {z : Res Empty α × S} (h : DeadOut z) : Fine z := by
  obtain ⟨r, s⟩ := z
  cases r with
  | err e => exact h
  | _ => trivial

theorem Out.fine {a : α} {s2 : S} {z : Res Empty α × S} (h : Out a s2 z) : Fine z := by
  obtain ⟨r, s⟩ := z
  cases r with
  | err e => exact h
  | _ => trivial

theorem calls_unit (fd : Option Nat) (w : ComplexWordKind Unit) (s : S) :
    (call (B := EmptyBuilder) (.word w) >>= fun w => call (B := EmptyBuilder) (.redirect (.Heredoc fd w)) : Q Unit) s = (.ok (), s) := rfl

theorem withIter_cases (m : Q α) (sub : AIter) (s : S) (h : Fine (m ⟨sub, ()⟩)) :
    (∃ a, withIter sub m s = (.ok a, s)) ∨ Stuck (withIter sub m s).1 ∨
      ∃ e s', withIter sub m s = (.err e, s') ∧ Dead s' ∧ Soft e := by
  obtain ⟨it, ⟨⟩⟩ := s
  unfold withIter
  simp only
  generalize m ⟨sub, ()⟩ = z at h
  obtain ⟨r, s1⟩ := z
  cases r with
  | ok a => exact .inl ⟨a, rfl⟩
  | err e => exact .inr (.inr ⟨e, s1, rfl, h⟩)
  | panic n => exact .inr (.inl trivial)
  | fuel => exact .inr (.inl trivial)

theorem withIter_ok {m : Q α} {sub : AIter} {s : S} {a : α} {s' : S} (h : withIter sub m s = (.ok a, s')) :
    (∃ s1, m ⟨sub, ()⟩ = (.ok a, s1)) ∧ s' = s := by
  obtain ⟨it, ⟨⟩⟩ := s
  unfold withIter at h
  simp only at h
  generalize m ⟨sub, ()⟩ = z at h
  obtain ⟨r, s1⟩ := z
  cases r with
  | ok a => cases h; exact ⟨⟨s1, rfl⟩, rfl⟩
  | err e => cases h
  | panic n => cases h
  | fuel => cases h

/-- The end succeeds with the stream unchanged, is stuck, or fails because the body is used up. -/
theorem hereEnd_cases (R : Rec AIter EmptyBuilder) (fd : Option Nat) (quoted : Bool) (lines : List (List Token × SourcePos)) (start : SourcePos)
    (s : S) (h : quoted = false → Fine (wordInterpolatedRaw R none start ⟨⟨chunkToks lines, start⟩, ()⟩)) :
    hereEnd R fd quoted lines start s = (.ok (), s) ∨ Stuck (hereEnd R fd quoted lines start s).1 ∨
      ∃ e s', hereEnd R fd quoted lines start s = (.err e, s') ∧ Dead s' ∧ Soft e := by
  cases quoted with
  | true => exact .inl rfl
  | false =>
    have h1 := h rfl
    unfold hereEnd
    simp only [Bool.false_eq_true, if_false]
    rw [foldr_buffer]
    rcases withIter_cases _ _ s h1 with ⟨a, h2⟩ | h2 | ⟨e, s', h2, h3⟩
    · left
      rw [bind_ok (s' := s) (a := heredocWord a)]
      · rfl
      · rw [bind_ok h2]
        rfl
    · exact .inr (.inl (stuck_bind (stuck_bind h2)))
    · refine .inr (.inr ⟨e, s', ?_, h3⟩)
      show P.bind (P.bind _ _) _ _ = _
      simp only [P.bind, h2]

theorem hereEnd_ok {R : Rec AIter EmptyBuilder} {fd : Option Nat} {quoted : Bool} {lines : List (List Token × SourcePos)} {start : SourcePos}
    {s s' : S} {a : Unit} (h : hereEnd R fd quoted lines start s = (.ok a, s')) :
    s' = s ∧ (quoted = false → ∃ w s1, wordInterpolatedRaw R none start ⟨⟨chunkToks lines, start⟩, ()⟩ = (.ok w, s1)) := by
  cases quoted with
  | true => cases h; exact ⟨rfl, by simp⟩
  | false =>
    unfold hereEnd at h
    simp only [Bool.false_eq_true, if_false] at h
    rw [foldr_buffer] at h
    obtain ⟨w, s1, h1, h2⟩ := ok_bind h
    obtain ⟨w', s2, h3, h4⟩ := ok_bind h1
    obtain ⟨h5, rfl⟩ := withIter_ok h3
    cases h4
    cases h2
    exact ⟨rfl, fun _ => ⟨w', h5⟩⟩

/-- The same for a run with another budget. -/
def Sm (m1 m2 : Q α) : Prop := ∀ s a s', m2 s = (.ok a, s') → m1 s = (.ok a, s') ∨ Stuck (m1 s).1

theorem sm_refl {m : Q α} : Sm m m := fun _ _ _ h => .inl h

theorem sm_bind {m1 m2 : Q α} {f1 f2 : α → Q β} (h : Sm m1 m2) (hf : ∀ a, Sm (f1 a) (f2 a)) : Sm (m1 >>= f1) (m2 >>= f2) := by
  intro s b s' e
  obtain ⟨a, s2', e1, e2⟩ := ok_bind e
  exact bind_same (m2 := m2) (f2 := f2) (h _ _ _ e1) (hf a _ _ _ e2)

section
variable {R R' : Rec AIter EmptyBuilder} (hR : RecEx R R')
include hR

omit hR in
theorem sm_withIter {m1 m2 : Q α} {sub : AIter} (h : Sm m1 m2) : Sm (withIter sub m1) (withIter sub m2) := by
  intro s a s' e
  obtain ⟨⟨s1, h1⟩, rfl⟩ := withIter_ok e
  obtain ⟨it, ⟨⟩⟩ := s'
  unfold withIter
  simp only
  rcases h _ _ _ h1 with h2 | h2
  · rw [h2]; exact .inl rfl
  · generalize m1 ⟨sub, ()⟩ = z at h2
    obtain ⟨r, s⟩ := z
    cases r with
    | ok _ => exact h2.elim
    | err e => exact h2.elim
    | panic _ => exact .inr trivial
    | fuel => exact .inr trivial

theorem sm_hereEnd (fd : Option Nat) (quoted : Bool) (lines : List (List Token × SourcePos)) (start : SourcePos) :
    Sm (hereEnd R fd quoted lines start) (hereEnd R' fd quoted lines start) := by
  unfold hereEnd
  refine sm_bind ?_ fun _ => sm_refl
  split
  · exact sm_refl
  · exact sm_bind (sm_withIter (ex_wordInterpolatedRaw hR).same) fun _ => sm_refl

theorem fine_same {start : SourcePos} {s s1 : S} {w} (h : wordInterpolatedRaw R' none start s = (.ok w, s1)) :
    Fine (wordInterpolatedRaw R none start s) := by
  rcases (ex_wordInterpolatedRaw hR).same _ _ _ h with h5 | h5
  · rw [h5]; trivial
  · generalize wordInterpolatedRaw R none start s = z at h5
    obtain ⟨r, s⟩ := z
    cases r with
    | err e => exact h5.elim
    | _ => trivial

theorem fine_dead (start start' : SourcePos) : Fine (wordInterpolatedRaw R none start ⟨⟨chunkToks [], start'⟩, ()⟩) :=
  ((ex_wordInterpolatedRaw hR).dead _ (by unfold Dead; rfl)).fine

omit hR in
theorem annotate_append (p : SourcePos) (l k : List Token) : ∃ p', annotate p (l ++ k) = annotate p l ++ annotate p' k := by
  induction l generalizing p with
  | nil => exact ⟨p, rfl⟩
  | cons t l ih =>
    obtain ⟨p', h⟩ := ih (p.advance t)
    exact ⟨p', by simp [annotate, h]⟩

omit hR in
theorem annotate_whole {p : SourcePos} {l : List Token} (h : EndsNl l) : Whole (annotate p l) := by
  obtain ⟨v, rfl⟩ := h
  obtain ⟨p', h⟩ := annotate_append p v [.Newline]
  exact ⟨annotate p v, p', by rw [h]; rfl⟩

omit hR in
theorem whole_append {u r : List PTok} (h : Whole u) (hr : Whole r ∨ r = []) : Whole (u ++ r) := by
  rcases hr with ⟨v, p, rfl⟩ | rfl
  · exact ⟨u ++ v, p, by simp⟩
  · simpa using h

omit hR in
theorem chunks_whole {ls : List (List Token × SourcePos)} (h : ∀ l ∈ ls, EndsNl l.1) : Whole (chunkToks ls) ∨ ls = [] := by
  induction ls with
  | nil => exact .inr rfl
  | cons l ls ih =>
    left
    show Whole (annotate l.2 l.1 ++ chunkToks ls)
    refine whole_append (annotate_whole (h l (by simp))) ?_
    rcases ih (fun l hl => h l (by simp [hl])) with h1 | rfl
    · exact .inl h1
    · exact .inr rfl

omit hR in
theorem out_end {R : Rec AIter EmptyBuilder} {fd : Option Nat} {quoted : Bool} {lines : List (List Token × SourcePos)} {start : SourcePos} {s1 s2 : S}
    (hl : Live s1 s2) (h : quoted = false → Fine (wordInterpolatedRaw R none start ⟨⟨chunkToks lines, start⟩, ()⟩)) :
    Out () s2 (hereEnd R fd quoted lines start s1) := by
  rcases hereEnd_cases R fd quoted lines start s1 h with h2 | h2 | ⟨e', s'', h2, h3⟩
  · rw [h2]; exact .inl ⟨rfl, hl⟩
  · generalize hereEnd R fd quoted lines start s1 = z at h2
    obtain ⟨r, s⟩ := z
    exact h2.out
  · rw [h2]; exact h3

omit hR in
theorem bind_eq {m : Q α} {f : α → Q β} {s : S} : (m >>= f) s = P.bind m f s := rfl

omit hR in
theorem Stuck.out' {z : Res Empty α × S} (h : Stuck z.1) {a : α} {s2 : S} : Out a s2 z := by
  obtain ⟨r, s⟩ := z
  exact h.out

omit hR in
theorem loop_nil_save (e : SourcePos) : loop saveLineBody [] (⟨⟨[], e⟩, ()⟩ : S) = (.ok [], ⟨⟨[], e⟩, ()⟩) := rfl

omit hR in
theorem loop_nil_body (strip : Bool) (d : Str) (e : SourcePos) :
    loop (heredocBody strip d) [] (⟨⟨[], e⟩, ()⟩ : S) = (.ok [], ⟨⟨[], e⟩, ()⟩) := by
  cases strip <;> rfl

/-- `hereRest` after the rest of the line. -/
def hereTail (R : Rec AIter EmptyBuilder) (fd : Option Nat) (strip quoted : Bool) (delim : Str) (saved : List Token) (savedPos : SourcePos) : Q Unit := do
  let start ← getPos
  let lines ← loop (heredocBody strip delim) []
  bufferFirst saved savedPos
  hereEnd R fd quoted lines start

omit hR in
theorem hereTail_ok {R : Rec AIter EmptyBuilder} {fd : Option Nat} {strip quoted : Bool} {d : Str} {saved : List Token} {sp : SourcePos} {s s' : S} {a : Unit}
    (h : hereTail R fd strip quoted d saved sp s = (.ok a, s')) :
    ∃ lines t, loop (heredocBody strip d) [] s = (.ok lines, t) ∧ s' = ⟨⟨annotate sp saved ++ t.it.rest, t.it.endPos⟩, ()⟩ ∧
      (quoted = false → ∃ w s1, wordInterpolatedRaw R none s.it.pos ⟨⟨chunkToks lines, s.it.pos⟩, ()⟩ = (.ok w, s1)) := by
  unfold hereTail at h
  obtain ⟨sp, t1, g1, h⟩ := ok_bind h
  cases g1
  obtain ⟨lines, t, g4, h⟩ := ok_bind h
  obtain ⟨_, t4, g5, h⟩ := ok_bind h
  cases g5
  obtain ⟨rfl, he⟩ := hereEnd_ok h
  exact ⟨lines, t, g4, rfl, he⟩

theorem tail_dead {fd : Option Nat} {strip quoted : Bool} {d : Str} {saved z : List Token} {sp e1 : SourcePos} {s2 s2' : S} {a : Unit}
    (hs : EndsNl saved) (h : hereTail R' fd strip quoted d (saved ++ z) sp s2 = (.ok a, s2')) :
    Out a s2' (hereTail R fd strip quoted d saved sp ⟨⟨[], e1⟩, ()⟩) := by
  obtain ⟨lines, t, g1, rfl, -⟩ := hereTail_ok h
  unfold hereTail
  rw [bind_ok (m := getPos) (a := e1) rfl, bind_ok (loop_nil_body strip d e1)]
  refine out_end (s1 := ⟨⟨annotate sp saved ++ [], e1⟩, ()⟩) ?_ fun _ => fine_dead hR _ _
  obtain ⟨p', h'⟩ := annotate_append sp saved z
  unfold Live
  refine ⟨⟨annotate p' z ++ t.it.rest, ?_⟩, ?_⟩
  · simp [h']
  · exact whole_append (annotate_whole hs) (.inr rfl)

theorem tail_live {fd : Option Nat} {strip quoted : Bool} {d : Str} {saved : List Token} {sp e1 e2 : SourcePos} {k y : List PTok} {s2' : S} {a : Unit}
    (hs : EndsNl saved) (hk : Whole k) (h : hereTail R' fd strip quoted d saved sp ⟨⟨k ++ y, e2⟩, ()⟩ = (.ok a, s2')) :
    Out a s2' (hereTail R fd strip quoted d saved sp ⟨⟨k, e1⟩, ()⟩) := by
  obtain ⟨lines, t, g1, rfl, g2⟩ := hereTail_ok h
  have hp : AIter.pos ⟨k ++ y, e2⟩ = AIter.pos ⟨k, e1⟩ := pos_pair hk.ne y
  unfold hereTail
  rw [bind_ok (m := getPos) (a := AIter.pos ⟨k, e1⟩) rfl]
  simp only [hp] at g2
  generalize AIter.pos ⟨k, e1⟩ = start at g2 ⊢
  have o1 := bodyLines strip d (TokStream.len (⟨k, e1⟩ : AIter) + 2) _ [] k y e1 e2 t lines (.inl hk) (by simp) g1
  change OutBody y lines t (loop (heredocBody strip d) [] (⟨⟨k, e1⟩, ()⟩ : S)) at o1
  rw [bind_eq]
  unfold P.bind
  generalize loop (heredocBody strip d) [] (⟨⟨k, e1⟩, ()⟩ : S) = z at o1 ⊢
  obtain ⟨z, ⟨⟨r, e1⟩, ⟨⟩⟩⟩ := z
  cases z with
  | panic n => trivial
  | fuel => trivial
  | err e => exact o1.elim
  | ok lines1 =>
    obtain ⟨h1, h2⟩ := o1
    show Out () _ (hereEnd R fd quoted lines1 start ⟨⟨annotate sp saved ++ r, e1⟩, ()⟩)
    rcases h2 with ⟨rfl, h3, h4⟩ | ⟨rfl, z, rfl⟩
    · refine out_end ?_ fun hq => ?_
      · unfold Live
        refine ⟨⟨y, ?_⟩, whole_append (annotate_whole hs) h4⟩
        simp only at h3
        simp [h3]
      · obtain ⟨w, s1, h5⟩ := g2 hq
        exact fine_same hR h5
    · refine out_end ?_ fun hq => ?_
      · unfold Live
        exact ⟨⟨t.it.rest, by simp⟩, whole_append (annotate_whole hs) (.inr rfl)⟩
      · obtain ⟨w, s1, h5⟩ := g2 hq
        rcases chunks_whole h1 with h6 | rfl
        · refine ((ex_wordInterpolatedRaw hR).live _ _ _ _ ?_ h5).fine
          unfold Live
          exact ⟨⟨chunkToks z, by simp [chunkToks]⟩, h6⟩
        · exact fine_dead hR _ _

theorem ex_hereRest (fd : Option Nat) (strip quoted : Bool) (d : Str) :
    Ex (hereRest R fd strip quoted d) (hereRest R' fd strip quoted d) where
  live s1 s2 a s2' hl e := by
    obtain ⟨⟨l, e1⟩, ⟨⟩⟩ := s1
    obtain ⟨⟨l2, e2⟩, ⟨⟩⟩ := s2
    unfold Live at hl
    obtain ⟨⟨y, hy⟩, hw⟩ := hl
    simp only at hy hw
    subst hy
    change (getPos >>= fun sp => loop saveLineBody [] >>= fun saved => hereTail R' fd strip quoted d saved sp : Q Unit) _ = _ at e
    change Out a s2' ((getPos >>= fun sp => loop saveLineBody [] >>= fun saved => hereTail R fd strip quoted d saved sp : Q Unit) _)
    rw [bind_ok (m := getPos) (a := AIter.pos ⟨l ++ y, e2⟩) rfl, pos_pair (e' := e1) hw.ne y] at e
    rw [bind_ok (m := getPos) (a := AIter.pos ⟨l, e1⟩) rfl]
    obtain ⟨saved, ⟨⟨k2, e3⟩, ⟨⟩⟩, g2, e⟩ := ok_bind e
    have o1 := saveLine (TokStream.len (⟨l, e1⟩ : AIter) + 2) _ [] l y e1 e2 _ saved (.inl hw) g2
    generalize AIter.pos ⟨l, e1⟩ = sp at e ⊢
    change OutSave y saved _ (loop saveLineBody [] (⟨⟨l, e1⟩, ()⟩ : S)) at o1
    rw [bind_eq]
    unfold P.bind
    generalize loop saveLineBody [] (⟨⟨l, e1⟩, ()⟩ : S) = z at o1 ⊢
    obtain ⟨z, ⟨⟨k, e1⟩, ⟨⟩⟩⟩ := z
    cases z with
    | panic n => trivial
    | fuel => trivial
    | err e => exact o1
    | ok saved1 =>
      obtain ⟨ho, o1⟩ := o1
      rcases o1 with ⟨rfl, h1, h2⟩ | ⟨h1, z, rfl⟩
      · simp only at h1
        subst h1
        exact tail_live hR ho h2 e
      · cases h1
        exact tail_dead hR ho e
  dead s1 hd := by
    obtain ⟨e, ⟨⟩, rfl⟩ := dead_eq hd
    unfold hereRest
    rw [bind_ok (m := getPos) (a := e) rfl, bind_ok (loop_nil_save e), bind_ok (m := getPos) (a := e) rfl,
      bind_ok (loop_nil_body strip d e), bind_ok (m := bufferFirst [] e) (s' := ⟨⟨[], e⟩, ()⟩) rfl]
    rcases hereEnd_cases R fd quoted [] e ⟨⟨[], e⟩, ()⟩ (fun _ => fine_dead hR _ _) with h2 | h2 | ⟨e', s'', h2, h3⟩
    · rw [h2]; exact hd
    · generalize hereEnd R fd quoted [] e ⟨⟨[], e⟩, ()⟩ = z at h2
      obtain ⟨r, s⟩ := z
      cases r with
      | ok _ => exact h2.elim
      | err e => exact h2.elim
      | panic _ => trivial
      | fuel => trivial
    · rw [h2]; exact h3
  same := sm_bind sm_refl fun _ => sm_bind sm_refl fun _ => sm_bind sm_refl fun _ => sm_bind sm_refl fun _ =>
    sm_bind sm_refl fun _ => sm_hereEnd hR fd quoted _ _

theorem ex_redirectHeredoc (fd : Option Nat) : Ex (redirectHeredoc R fd) (redirectHeredoc R' fd) := by
  rw [heredoc_eq, heredoc_eq]
  refine ex_bind ?_ fun strip => ex_bind ex_skipWhitespace fun _ => ex_bind ex_heredocDelim fun q => ?_
  · ex
  · exact ex_hereRest hR fd strip q.1 q.2
macro_rules | `(tactic| ex_lemma) => `(tactic| exact ex_redirectHeredoc (by assumption) _)

end

end Final
end Conch
