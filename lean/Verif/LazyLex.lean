import Verif.Lazy
/-!
# How far the parser looks ahead: blanks, reserved words, quotes, arithmetic
-/
namespace Conch
namespace Lazy

variable {B : Builder} {α β σ : Type}
variable {q : List Token} {p : Prop} {Q : α → Prop}

/-! ## Look-aheads -/

/-- The abstraction of one look-ahead step. -/
theorem mpNext_it (m : Multipeek) : m.peekNext.2.abs.it = m.abs.it := by
  rw [(Multipeek.peekNext_abs m).2]

/-- The state of a look-ahead that has shown no newline. -/
structure Mq (a : AIter) (p : Prop) (m : Multipeek) : Prop where
  mp : Mp a p m
  nn : .Newline ∉ shown m

theorem Mp.mono {a : AIter} {p p' : Prop} {m : Multipeek} (h : Mp a p m) (hp : p' → p) : Mp a p' m :=
  ⟨h.it, h.weak, fun x => h.strict (hp x)⟩

theorem mq_new {a : AIter} {m : Multipeek} (h : Mp a p m) (h0 : shown m = []) : Mq a p m :=
  ⟨h, by rw [h0]; simp⟩

theorem Mq.first {a : AIter} {m : Multipeek} (h : Mp a p m) (h0 : shown m = []) (hn : m.peekNext.1 ≠ some .Newline) :
    Mq a True m.peekNext.2 :=
  ⟨(h.next (mq_new h h0).nn).2.2 h0 hn, (h.next (mq_new h h0).nn).2.1 hn⟩

theorem Mq.step {a : AIter} {m : Multipeek} (h : Mq a p m) : Mp a p m.peekNext.2 := (h.mp.next h.nn).1

theorem Mq.next {a : AIter} {m : Multipeek} (h : Mq a p m) (hn : m.peekNext.1 ≠ some .Newline) : Mq a p m.peekNext.2 :=
  ⟨h.step, (h.mp.next h.nn).2.1 hn⟩

/-- One step of a look-ahead. -/
structure MpStep (m : Multipeek) (t : Option Token) (n : Multipeek) : Prop where
  eq : TokStream.mpNext (I := CIter) m = (t, n)
  it : n.abs.it = m.abs.it
  first : ∀ {a p}, Mp a p m → shown m = [] → Mp a p n ∧ (t ≠ some .Newline → Mq a True n)
  next : ∀ {a p}, Mq a p m → Mp a p n ∧ (t ≠ some .Newline → Mq a p n)
  two : ∀ {a p}, Mp a p m → (shown m).length ≤ 1 → Mp a False n
  one : shown m = [] → (shown n).length ≤ 1

theorem mp_one (m : Multipeek) : ∃ t n, MpStep m t n :=
  ⟨m.peekNext.1, m.peekNext.2, rfl, mpNext_it m, fun h h0 => ⟨(mq_new h h0).step, Mq.first h h0⟩,
    fun h => ⟨h.step, h.next⟩, fun h => h.second, shown_one⟩

theorem ok_backslashNewline : MpOk p (mpBackslashNewline (I := CIter)) (fun b => p ∨ b = true) := by
  suffices h : ∀ m, (mpBackslashNewline (I := CIter) m).2.abs.it = m.abs.it ∧ ∀ a, Mp a p m → shown m = [] →
      Mp a (p ∨ (mpBackslashNewline (I := CIter) m).1 = true) (mpBackslashNewline (I := CIter) m).2 from
    ⟨fun m => (h m).1, fun a m => (h m).2 a⟩
  intro m
  obtain ⟨t, n, h1⟩ := mp_one m
  obtain ⟨u, k, h2⟩ := mp_one n
  unfold mpBackslashNewline
  rw [h1.eq]
  simp only
  split
  · rename_i ht
    rw [h2.eq]
    exact ⟨h2.it.trans h1.it, fun a h h0 => (h2.next ((h1.first h h0).2 (by rw [ht]; simp))).1.mono fun _ => trivial⟩
  · exact ⟨h1.it, fun a h h0 => (h1.first h h0).1.mono (by simp)⟩
theorem la_backslashNewline : Lz q p (lookahead mpBackslashNewline : P CIter B Bool) (fun b => p ∨ b = true) := lz_lookahead ok_backslashNewline
macro_rules | `(tactic| lz_lemma) => `(tactic| exact la_backslashNewline)

theorem ok_reservedToken {ts : List Token} (hts : .Newline ∉ ts) :
    MpOk p (mpReservedToken (I := CIter) ts) (fun r => p ∨ (∃ t, r = some (some t))) := by
  suffices h : ∀ m, (mpReservedToken (I := CIter) ts m).2.abs.it = m.abs.it ∧ ∀ a, Mp a p m → shown m = [] →
      Mp a (p ∨ (∃ t, (mpReservedToken (I := CIter) ts m).1 = some (some t))) (mpReservedToken (I := CIter) ts m).2 from
    ⟨fun m => (h m).1, fun a m => (h m).2 a⟩
  intro m
  obtain ⟨t, n, h1⟩ := mp_one m
  obtain ⟨u, k, h2⟩ := mp_one n
  unfold mpReservedToken
  rw [h1.eq]
  cases t with
  | none => exact ⟨h1.it, fun a h h0 => (h1.first h h0).1.mono (by simp)⟩
  | some t =>
    simp only
    split
    · rename_i ht
      rw [h2.eq]
      have ht : some t ≠ some .Newline := by
        rintro h; cases h
        exact hts (by simpa using ht)
      cases u <;>
      exact ⟨h2.it.trans h1.it, fun a h h0 => (h2.next ((h1.first h h0).2 ht)).1.mono fun _ => trivial⟩
    · exact ⟨h1.it, fun a h h0 => (h1.first h h0).1.mono (by simp)⟩

theorem ok_reservedWord (ws : List Str) : MpOk p (mpReservedWord (I := CIter) ws) (fun _ => False) := by
  suffices h : ∀ m, (mpReservedWord (I := CIter) ws m).2.abs.it = m.abs.it ∧ ∀ a, Mp a p m → shown m = [] →
      Mp a False (mpReservedWord (I := CIter) ws m).2 from
    ⟨fun m => (h m).1, fun a m => (h m).2 a⟩
  intro m
  obtain ⟨t, n, h1⟩ := mp_one m
  obtain ⟨u, k, h2⟩ := mp_one n
  unfold mpReservedWord
  rw [h1.eq]
  simp only
  rw [h2.eq]
  cases u <;>
  exact ⟨h2.it.trans h1.it, fun a h h0 => h2.two (h1.first h h0).1 (h1.one h0)⟩
theorem la_reservedWord (ws : List Str) : Lz q p (lookahead (mpReservedWord ws) : P CIter B _) (fun _ => False) :=
  lz_lookahead (ok_reservedWord ws)
macro_rules | `(tactic| lz_lemma) => `(tactic| exact la_reservedWord _)

theorem ok_secondNewline : MpOk p (mpSecondNewline (I := CIter)) (fun _ => False) := by
  suffices h : ∀ m, (mpSecondNewline (I := CIter) m).2.abs.it = m.abs.it ∧ ∀ a, Mp a p m → shown m = [] →
      Mp a False (mpSecondNewline (I := CIter) m).2 from
    ⟨fun m => (h m).1, fun a m => (h m).2 a⟩
  intro m
  obtain ⟨t, n, h1⟩ := mp_one m
  obtain ⟨u, k, h2⟩ := mp_one n
  unfold mpSecondNewline
  rw [h1.eq]
  simp only
  rw [h2.eq]
  exact ⟨h2.it.trans h1.it, fun a h h0 => h2.two (h1.first h h0).1 (h1.one h0)⟩
theorem la_secondNewline : Lz q p (lookahead mpSecondNewline : P CIter B Bool) (fun _ => False) := lz_lookahead ok_secondNewline
macro_rules | `(tactic| lz_lemma) => `(tactic| exact la_secondNewline)

theorem ok_secondParenOpen : MpOk p (mpSecondParenOpen (I := CIter)) (fun _ => False) := by
  suffices h : ∀ m, (mpSecondParenOpen (I := CIter) m).2.abs.it = m.abs.it ∧ ∀ a, Mp a p m → shown m = [] →
      Mp a False (mpSecondParenOpen (I := CIter) m).2 from
    ⟨fun m => (h m).1, fun a m => (h m).2 a⟩
  intro m
  obtain ⟨t, n, h1⟩ := mp_one m
  obtain ⟨u, k, h2⟩ := mp_one n
  unfold mpSecondParenOpen
  rw [h1.eq]
  simp only
  rw [h2.eq]
  exact ⟨h2.it.trans h1.it, fun a h h0 => h2.two (h1.first h h0).1 (h1.one h0)⟩
theorem la_secondParenOpen : Lz q p (lookahead mpSecondParenOpen : P CIter B Bool) (fun _ => False) := lz_lookahead ok_secondParenOpen
macro_rules | `(tactic| lz_lemma) => `(tactic| exact la_secondParenOpen)

theorem ne_of_name {t : Option Token} (h : t.any Token.isName = true) : t ≠ some .Newline := by
  rintro rfl; cases h

theorem ne_of_ws {t : Option Token} (h : t.any Token.isWs = true) : t ≠ some .Newline := by
  rintro rfl; cases h

theorem ok_assignment : MpOk p (mpAssignment (I := CIter)) (fun _ => p) := by
  suffices h : ∀ m, (mpAssignment (I := CIter) m).2.abs.it = m.abs.it ∧ ∀ a, Mp a p m → shown m = [] →
      Mp a p (mpAssignment (I := CIter) m).2 from
    ⟨fun m => (h m).1, fun a m => (h m).2 a⟩
  intro m
  obtain ⟨t, n, h1⟩ := mp_one m
  obtain ⟨u, k, h2⟩ := mp_one n
  unfold mpAssignment
  rw [h1.eq]
  simp only
  split
  · rename_i ht
    rw [h2.eq]
    exact ⟨h2.it.trans h1.it, fun a h h0 => (h2.next ((h1.first h h0).2 (ne_of_name ht))).1.mono fun _ => trivial⟩
  · exact ⟨h1.it, fun a h h0 => (h1.first h h0).1⟩
theorem la_assignment : Lz q p (lookahead mpAssignment : P CIter B Bool) (fun _ => p) := lz_lookahead ok_assignment
macro_rules | `(tactic| lz_lemma) => `(tactic| exact la_assignment)

theorem ok_function : MpOk p (mpFunction (I := CIter)) (fun _ => p) := by
  suffices h : ∀ m, (mpFunction (I := CIter) m).2.abs.it = m.abs.it ∧ ∀ a, Mp a p m → shown m = [] →
      Mp a p (mpFunction (I := CIter) m).2 from
    ⟨fun m => (h m).1, fun a m => (h m).2 a⟩
  intro m
  obtain ⟨t, n, h1⟩ := mp_one m
  obtain ⟨u, k, h2⟩ := mp_one n
  obtain ⟨v, l, h3⟩ := mp_one k
  unfold mpFunction
  rw [h1.eq]
  simp only
  split
  · rename_i ht
    rw [h2.eq]
    simp only
    split
    · rename_i hu
      rw [h3.eq]
      exact ⟨h3.it.trans (h2.it.trans h1.it), fun a h h0 =>
        (h3.next ((h2.next ((h1.first h h0).2 (ne_of_name ht))).2 (ne_of_ws hu))).1.mono fun _ => trivial⟩
    · exact ⟨h2.it.trans h1.it, fun a h h0 => (h2.next ((h1.first h h0).2 (ne_of_name ht))).1.mono fun _ => trivial⟩
  · exact ⟨h1.it, fun a h h0 => (h1.first h h0).1⟩
theorem la_function : Lz q p (lookahead mpFunction : P CIter B Bool) (fun _ => p) := lz_lookahead ok_function
macro_rules | `(tactic| lz_lemma) => `(tactic| exact la_function)

theorem ok_postIncr : MpOk p (mpPostIncr (I := CIter)) (fun _ => p) := by
  suffices h : ∀ m, (mpPostIncr (I := CIter) m).2.abs.it = m.abs.it ∧ ∀ a, Mp a p m → shown m = [] →
      Mp a p (mpPostIncr (I := CIter) m).2 from
    ⟨fun m => (h m).1, fun a m => (h m).2 a⟩
  intro m
  obtain ⟨t, n, h1⟩ := mp_one m
  obtain ⟨u, k, h2⟩ := mp_one n
  have no : n.abs.it = m.abs.it ∧ ∀ a, Mp a p m → shown m = [] → Mp a p n :=
    ⟨h1.it, fun a h h0 => (h1.first h h0).1⟩
  have yes : t ≠ some .Newline → k.abs.it = m.abs.it ∧ ∀ a, Mp a p m → shown m = [] → Mp a p k :=
    fun ht => ⟨h2.it.trans h1.it, fun a h h0 => (h2.next ((h1.first h h0).2 ht)).1.mono fun _ => trivial⟩
  unfold mpPostIncr
  rw [h1.eq]
  by_cases hp : t = some .Plus
  · subst hp; simp only; rw [h2.eq]; exact yes (by simp)
  by_cases hd : t = some .Dash
  · subst hd; simp only; rw [h2.eq]; exact yes (by simp)
  cases t with
  | none => exact no
  | some t => cases t <;> first | exact no | exact absurd rfl hp | exact absurd rfl hd
theorem la_postIncr : Lz q p (lookahead mpPostIncr : P CIter B Bool) (fun _ => p) := lz_lookahead ok_postIncr
macro_rules | `(tactic| lz_lemma) => `(tactic| exact la_postIncr)

theorem ok_doubleStar : MpOk p (mpDoubleStar (I := CIter)) (fun _ => p) := by
  suffices h : ∀ m, (mpDoubleStar (I := CIter) m).2.abs.it = m.abs.it ∧ ∀ a, Mp a p m → shown m = [] →
      Mp a p (mpDoubleStar (I := CIter) m).2 from
    ⟨fun m => (h m).1, fun a m => (h m).2 a⟩
  intro m
  obtain ⟨t, n, h1⟩ := mp_one m
  obtain ⟨u, k, h2⟩ := mp_one n
  unfold mpDoubleStar
  rw [h1.eq]
  simp only
  split
  · rename_i ht
    rw [h2.eq]
    exact ⟨h2.it.trans h1.it, fun a h h0 => (h2.next ((h1.first h h0).2 (by rw [ht]; simp))).1.mono fun _ => trivial⟩
  · exact ⟨h1.it, fun a h h0 => (h1.first h h0).1⟩
theorem la_doubleStar : Lz q p (lookahead mpDoubleStar : P CIter B Bool) (fun _ => p) := lz_lookahead ok_doubleStar
macro_rules | `(tactic| lz_lemma) => `(tactic| exact la_doubleStar)

theorem ok_assigOp (i : Nat) : ∀ m, (mpAssigOp (I := CIter) i m).2.abs.it = m.abs.it ∧ ∀ a, Mq a p m →
    Mp a p (mpAssigOp (I := CIter) i m).2 := by
  induction i with
  | zero => intro m; exact ⟨rfl, fun a h => h.mp⟩
  | succ i ih =>
    intro m
    obtain ⟨t, n, h1⟩ := mp_one m
    obtain ⟨u, k, h2⟩ := mp_one n
    unfold mpAssigOp
    rw [h1.eq]
    cases t with
    | none => exact ⟨h1.it, fun a h => (h1.next h).1⟩
    | some t =>
      simp only
      have yes : some t ≠ some .Newline → k.abs.it = m.abs.it ∧ ∀ a, Mq a p m → Mp a p k :=
        fun ht => ⟨h2.it.trans h1.it, fun a h => (h2.next ((h1.next h).2 ht)).1⟩
      split
      · rename_i ht
        exact ⟨(ih n).1.trans h1.it, fun a h => (ih n).2 a ((h1.next h).2 (by rintro ⟨⟩; cases ht))⟩
      · split
        · rename_i ht
          rw [h2.eq]
          exact yes (by rintro ⟨⟩; cases ht)
        · split
          · rename_i ht
            rw [h2.eq]
            exact yes (by rw [ht]; simp)
          · exact ⟨h1.it, fun a h => (h1.next h).1⟩

theorem ok_assig (i : Nat) : MpOk p (mpAssig (I := CIter) i) (fun _ => p) := by
  have key : ∀ i m, (mpAssig (I := CIter) i m).2.abs.it = m.abs.it ∧ ∀ a, Mq a p m →
      Mp a p (mpAssig (I := CIter) i m).2 := by
    intro i
    induction i with
    | zero => intro m; exact ⟨rfl, fun a h => h.mp⟩
    | succ i ih =>
      intro m
      obtain ⟨t, n, h1⟩ := mp_one m
      have no : n.abs.it = m.abs.it ∧ ∀ a, Mq a p m → Mp a p n := ⟨h1.it, fun a h => (h1.next h).1⟩
      unfold mpAssig
      rw [h1.eq]
      cases t with
      | none => exact no
      | some t =>
        cases t with
        | Dollar => exact ⟨(ih n).1.trans h1.it, fun a h => (ih n).2 a ((h1.next h).2 (by simp))⟩
        | Name s => exact ⟨(ok_assigOp (p := p) i n).1.trans h1.it,
            fun a h => (ok_assigOp i n).2 a ((h1.next h).2 (by simp))⟩
        | _ => exact no
  exact ⟨fun m => (key i m).1, fun a m h h0 => (key i m).2 a (mq_new h h0)⟩

/-! ## Blanks and reserved words -/

theorem lz_skipWs : Lz q p (loop skipWsBody () : P CIter B _) (fun _ => p) := by
  refine lz_loop (fun _ => p) (fun _ => ?_) id
  unfold skipWsBody
  lz
macro_rules | `(tactic| lz_lemma) => `(tactic| exact lz_skipWs)

theorem lz_skipWhitespace : Lz q p (skipWhitespace : P CIter B _) (fun _ => p) := by
  refine lz_loop (fun _ => p) (fun _ => ?_) id
  unfold skipWhitespaceBody
  lz
macro_rules | `(tactic| lz_lemma) => `(tactic| exact lz_skipWhitespace)

theorem lz_takeComment (h : p) : Lz q p (loop takeCommentBody [] : P CIter B _) (fun _ => True) := by
  refine lz_loop (fun _ => True) (fun _ => ?_) fun _ => h
  unfold takeCommentBody
  lz

theorem lz_newline : Lz q p (newline : P CIter B _) (fun r => p ∨ r.isSome = true) := by
  unfold newline
  lz
  refine lz_bind (lz_takeComment (by simp)) fun _ => ?_
  lz
macro_rules | `(tactic| lz_lemma) => `(tactic| exact lz_newline)

theorem lz_linebreak : Lz q p (linebreak : P CIter B _) (fun _ => p) := by
  refine lz_loop (fun _ => p) (fun _ => ?_) id
  unfold linebreakBody
  lz
macro_rules | `(tactic| lz_lemma) => `(tactic| exact lz_linebreak)

theorem lz_peekReservedTokenTries {ts : List Token} (h : .Newline ∉ ts) (n : Nat) :
    Lz q p (peekReservedTokenTries ts n : P CIter B _) (fun _ => p) := by
  induction n with
  | zero => exact lz_pure id
  | succ n ih =>
    unfold peekReservedTokenTries
    refine lz_bind (lz_lookahead (ok_reservedToken h)) fun r => ?_
    lz
    exact ih.mono (fun h => .inl h) fun _ h => h

theorem lz_peekReservedToken {ts : List Token} (h : .Newline ∉ ts) :
    Lz q p (peekReservedToken ts : P CIter B _) (fun _ => p) := by
  unfold peekReservedToken
  lz
  · exact lz_peekReservedTokenTries h _
  · exact lz_peekReservedTokenTries h _
macro_rules | `(tactic| lz_lemma2) => `(tactic| ((with_reducible refine lz_peekReservedToken ?_); decide))

theorem lz_peekReservedWord (ws : List Str) : Lz q p (peekReservedWord ws : P CIter B _) (fun _ => False) := by
  unfold peekReservedWord
  lz
macro_rules | `(tactic| lz_lemma) => `(tactic| exact lz_peekReservedWord _)

theorem lz_reservedToken' {ts : List Token} (h : .Newline ∉ ts) :
    Lz q p (reservedToken' ts : P CIter B _) (fun r => r.isSome = true) := by
  unfold reservedToken'
  refine lz_bind (lz_peekReservedToken h) fun r => ?_
  lz
macro_rules | `(tactic| lz_lemma2) => `(tactic| ((with_reducible refine lz_reservedToken' ?_); decide))

theorem lz_reservedToken {ts : List Token} (h : .Newline ∉ ts) :
    Lz q p (reservedToken ts : P CIter B _) (fun _ => True) := by
  unfold reservedToken
  refine lz_bind (lz_reservedToken' h) fun r => ?_
  lz
macro_rules | `(tactic| lz_lemma2) => `(tactic| ((with_reducible refine lz_reservedToken ?_); decide))

theorem lz_reservedWord (ws : List Str) : Lz q p (reservedWord ws : P CIter B _) (fun r => r.isSome = true) := by
  unfold reservedWord
  lz
macro_rules | `(tactic| lz_lemma) => `(tactic| exact lz_reservedWord _)

/-! ## Quotes and backticks -/

theorem steps_nextPlain {i : CIter} {b : Balanced CIter} (h : Steps i b.iter) : Steps i b.nextPlain.2.iter := by
  unfold Balanced.nextPlain
  simp only
  generalize ht : (TokStream.next b.iter).1 = t
  have h1 := h.next
  cases t with
  | none => cases b.stack <;> exact h1
  | some t =>
    cases t with
    | Backslash => exact h1.next
    | SingleQuote => simp only; split <;> exact h1
    | Dollar => simp only; split <;> first | exact h1.peek | (split <;> exact h1.peek)
    | _ => exact h1

theorem steps_next {i : CIter} {b : Balanced CIter} (h : Steps i b.iter) : Steps i b.next.2.iter := by
  unfold Balanced.next
  split
  · exact h
  · split
    · exact h
    · simp only
      split
      · exact h.peek.next
      · split
        · exact h.peek.next
        · exact steps_nextPlain h.peek

theorem steps_collectN (n : Nat) {i : CIter} {b : Balanced CIter} (h : Steps i b.iter) :
    Steps i (b.collectN n).2.iter := by
  induction n generalizing b with
  | zero => exact h
  | succ n ih =>
    have h1 := steps_next h
    unfold Balanced.collectN
    generalize b.next = x at h1
    obtain ⟨x, b'⟩ := x
    rcases x with _ | _ | t
    · exact h1
    · exact h1
    · have h2 := ih h1
      simp only
      generalize b'.collectN n = u at h2
      obtain ⟨u, b''⟩ := u
      cases u <;> exact h2

theorem steps_chunkLoop (n : Nat) (cs chunk start) {i : CIter} {b : Balanced CIter} (h : Steps i b.iter) :
    Steps i (chunkLoop n cs chunk start b).2.iter := by
  induction n generalizing cs chunk start b with
  | zero => exact h
  | succ n ih =>
    have h1 := steps_next h
    unfold chunkLoop
    generalize b.next = x at h1
    obtain ⟨x, b'⟩ := x
    rcases x with _ | _ | t
    · exact h1
    · exact h1
    · by_cases ht : t = .Backslash
      · subst ht
        simp only
        have h2 := steps_next h1
        generalize b'.next = y at h2
        obtain ⟨y, b''⟩ := y
        rcases y with _ | _ | t
        · exact ih _ _ _ h2
        · exact h2
        · simp only
          split
          · exact ih _ _ _ h2
          · exact ih _ _ _ h2
      · cases t <;> first | exact ih _ _ _ h1 | exact absurd rfl ht

theorem lz_singleQuoted (pos : SourcePos) :
    Lz q p (scan (fun it => takeSingleQuoted it pos) : P CIter B _) (fun _ => p) :=
  lz_scan fun i => steps_collectN (TokStream.len i + 2) (b := Balanced.new i (some (.SingleQuote, pos))) (i := i) .refl
macro_rules | `(tactic| lz_lemma) => `(tactic| exact lz_singleQuoted _)

theorem steps_backticked (i : CIter) (pos : SourcePos) : Steps i (tokenIterFromBackticked i pos).2 := by
  unfold tokenIterFromBackticked createTokenIter
  have h := steps_chunkLoop (TokStream.len (backticked i pos).iter + 2) [] [] (backticked i pos).pos
    (i := i) (b := backticked i pos) .refl
  generalize chunkLoop (TokStream.len (backticked i pos).iter + 2) [] [] (backticked i pos).pos (backticked i pos) = z at h
  obtain ⟨r, b⟩ := z
  cases r <;> exact h

/-! ## Arithmetic -/

theorem lz_arithVar : Lz q p (arithVar : P CIter B _) (fun _ => True) := by
  unfold arithVar
  lz
macro_rules | `(tactic| lz_lemma) => `(tactic| exact lz_arithVar)

theorem lz_arithVarPost : Lz q p (arithVarPost : P CIter B _) (fun _ => True) := by
  unfold arithVarPost
  lz
macro_rules | `(tactic| lz_lemma) => `(tactic| exact lz_arithVarPost)

/-- The recursive occurrences leave a strict buffer. -/
structure ArithLz (q : List Token) (R : ArithRec CIter B) : Prop where
  subst : ∀ {p}, Lz q p R.subst (fun _ => True)
  assig : ∀ {p}, Lz q p R.assig (fun _ => True)
  ternary : ∀ {p}, Lz q p R.ternary (fun _ => True)
  pow : ∀ {p}, Lz q p R.pow (fun _ => True)
  unary : ∀ {p}, Lz q p R.unary (fun _ => True)

macro_rules | `(tactic| lz_lemma) => `(tactic| exact ArithLz.subst (by assumption))
macro_rules | `(tactic| lz_lemma) => `(tactic| exact ArithLz.assig (by assumption))
macro_rules | `(tactic| lz_lemma) => `(tactic| exact ArithLz.ternary (by assumption))
macro_rules | `(tactic| lz_lemma) => `(tactic| exact ArithLz.pow (by assumption))
macro_rules | `(tactic| lz_lemma) => `(tactic| exact ArithLz.unary (by assumption))

section
variable {R : ArithRec CIter B} (hR : ArithLz q R)
include hR

theorem lz_arithPostIncr : Lz q p (arithPostIncr R) (fun _ => True) := by
  unfold arithPostIncr
  lz
macro_rules | `(tactic| lz_lemma) => `(tactic| exact lz_arithPostIncr (by assumption))

theorem lz_arithUnary : Lz q p (arithUnary R) (fun _ => True) := by
  unfold arithUnary
  lz
macro_rules | `(tactic| lz_lemma) => `(tactic| exact lz_arithUnary (by assumption))

theorem lz_arithPow : Lz q p (arithPow R) (fun _ => True) := by
  unfold arithPow
  lz
macro_rules | `(tactic| lz_lemma) => `(tactic| exact lz_arithPow (by assumption))

omit hR in
theorem lz_arithBin {sub : P CIter B DefaultArithmetic} {op}
    (h : ∀ {p}, Lz q p sub (fun _ => True)) : Lz q p (arithBin sub op) (fun _ => True) := by
  unfold arithBin
  refine lz_bind h fun _ => lz_loop (fun _ => True) (fun _ => ?_) id
  unfold arithBinBody
  lz
  refine lz_bind h fun _ => ?_
  lz

theorem lz_arithShift : Lz q p (arithShift R) (fun _ => True) :=
  lz_arithBin (lz_arithBin (lz_arithBin (lz_arithPow hR)))
macro_rules | `(tactic| lz_lemma) => `(tactic| exact lz_arithShift (by assumption))

theorem lz_arithIneq : Lz q p (arithIneq R) (fun _ => True) := by
  unfold arithIneq
  lz
  refine lz_loop (fun _ => True) (fun _ => ?_) id
  unfold arithIneqBody
  lz
macro_rules | `(tactic| lz_lemma) => `(tactic| exact lz_arithIneq (by assumption))

theorem lz_arithEq : Lz q p (arithEq R) (fun _ => True) := by
  unfold arithEq
  lz
  refine lz_loop (fun _ => True) (fun _ => ?_) id
  unfold arithEqBody
  lz

theorem lz_arithLogOr : Lz q p (arithLogOr R) (fun _ => True) :=
  lz_arithBin (lz_arithBin (lz_arithBin (lz_arithBin (lz_arithBin (lz_arithEq hR)))))
macro_rules | `(tactic| lz_lemma) => `(tactic| exact lz_arithLogOr (by assumption))

theorem lz_arithTernary : Lz q p (arithTernary R) (fun _ => True) := by
  unfold arithTernary
  lz
macro_rules | `(tactic| lz_lemma) => `(tactic| exact lz_arithTernary (by assumption))

theorem lz_arithAssig : Lz q p (arithAssig R) (fun _ => True) := by
  unfold arithAssig
  refine lz_bind lz_skipWhitespace fun _ => lz_bind (lz_len fun n => lz_lookahead (ok_assig n)) fun _ => ?_
  lz
macro_rules | `(tactic| lz_lemma) => `(tactic| exact lz_arithAssig (by assumption))

theorem lz_arithSubst : Lz q p (arithSubst R) (fun _ => True) := by
  unfold arithSubst
  refine lz_bind (lz_loop (fun _ => p) (fun _ => ?_) id (Q := fun _ => True)) fun _ => ?_
  · unfold arithSubstBody
    lz
  · lz

end

theorem arithLz_fix (n : Nat) : ArithLz q (ArithRec.fix n : ArithRec CIter B) := by
  induction n with
  | zero => exact ⟨lz_outOfFuel, lz_outOfFuel, lz_outOfFuel, lz_outOfFuel, lz_outOfFuel⟩
  | succ n ih => exact ⟨lz_arithSubst ih, lz_arithAssig ih, lz_arithTernary ih, lz_arithPow ih, lz_arithUnary ih⟩

theorem lz_arithmeticSubstitution : Lz q p (arithmeticSubstitution : P CIter B _) (fun _ => True) :=
  lz_len (m := fun n => arithSubst (ArithRec.fix n)) fun n => lz_arithSubst (arithLz_fix n)
macro_rules | `(tactic| lz_lemma) => `(tactic| exact lz_arithmeticSubstitution)

end Lazy
end Conch
