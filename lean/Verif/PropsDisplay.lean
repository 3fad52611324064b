import Verif.Display
import Verif.PropsErr
import Verif.PropsRedirect
/-!
# Property C43: error messages
-/
namespace Conch
open Spec

/-- The same line and the same column. -/
def Spec.SameLineCol (p q : SourcePos) : Prop := p.line = q.line ∧ p.col = q.col

/-- The text by which a message shows an unexpected token. -/
def Spec.shown (t : Token) : Str := if t = .Newline then ['\\', 'n'] else t.asStr

/-- The two errors are of the same kind, at the same lines and columns, about the same texts. -/
def Spec.SameReport {ε : Type} : ParseError ε → ParseError ε → Prop
  | .BadFd p q, .BadFd p' q' => SameLineCol p p' ∧ SameLineCol q q'
  | .BadIdent s p, .BadIdent s' p' => s = s' ∧ SameLineCol p p'
  | .BadSubst t p, .BadSubst t' p' => t.asStr = t'.asStr ∧ SameLineCol p p'
  | .Unmatched t p, .Unmatched t' p' => t.asStr = t'.asStr ∧ SameLineCol p p'
  | .IncompleteCmd c p k q, .IncompleteCmd c' p' k' q' =>
      c = c' ∧ SameLineCol p p' ∧ k = k' ∧ SameLineCol q q'
  | .Unexpected t p, .Unexpected t' p' => shown t = shown t' ∧ SameLineCol p p'
  | .UnexpectedEOF, .UnexpectedEOF => True
  | _, _ => False

theorem incomplete_display {ε : Type} (sh : ε → Str) (c k : Str) (p q : SourcePos) :
    (ParseError.IncompleteCmd (ε := ε) c p k q).display sh =
      "did not find `".toList ++ k ++ "` keyword on line ".toList ++ q.display ++
      ", in `".toList ++ c ++ "` command which starts on line ".toList ++ p.display := rfl

theorem span_unique {P : Char → Prop} {xs ys r r' : Str} {x y : Char} (hx : ∀ c ∈ xs, P c)
    (hy : ∀ c ∈ ys, P c) (h1 : ¬ P x) (h2 : ¬ P y) (h : xs ++ x :: r = ys ++ y :: r') :
    xs = ys ∧ x = y ∧ r = r' := by
  induction xs generalizing ys with
  | nil =>
    cases ys with
    | nil => simpa using h
    | cons c ys => simp at h; exact absurd (hy c (by simp)) (h.1 ▸ h1)
  | cons c xs ih =>
    cases ys with
    | nil => simp at h; exact absurd (hx c (by simp)) (h.1 ▸ h2)
    | cons d ys =>
      simp only [List.cons_append, List.cons.injEq] at h
      obtain ⟨rfl, h3, h4⟩ := ih (fun c hc => hx c (by simp [hc])) (fun c hc => hy c (by simp [hc])) h.2
      exact ⟨by rw [h.1], h3, h4⟩

theorem natDigits_inj {a b : Nat} (h : natDigits a = natDigits b) : a = b := by
  have h1 := natDigits_magnitude a
  have h2 := natDigits_magnitude b
  rw [h, h2] at h1
  simpa using h1.symm

theorem digits_unique {a b : Nat} {x y : Char} {r r' : Str} (h1 : isDigit x = false) (h2 : isDigit y = false)
    (h : natDigits a ++ x :: r = natDigits b ++ y :: r') : a = b ∧ x = y ∧ r = r' := by
  obtain ⟨h3, h4⟩ := span_unique (P := fun c => isDigit c = true) (fun _ => natDigits_isDigit)
    (fun _ => natDigits_isDigit) (by simp [h1]) (by simp [h2]) h
  exact ⟨natDigits_inj h3, h4⟩

/-- A position, followed by a character that is no digit. -/
theorem pos_unique {p q : SourcePos} {x y : Char} {r r' : Str} (h1 : isDigit x = false) (h2 : isDigit y = false)
    (h : p.display ++ x :: r = q.display ++ y :: r') : SameLineCol p q ∧ x = y ∧ r = r' := by
  unfold SourcePos.display at h
  have e : (":".toList : Str) = [':'] := by decide
  simp only [e, List.append_assoc, List.singleton_append] at h
  obtain ⟨h3, -, h4⟩ := digits_unique (by decide) (by decide) h
  obtain ⟨h5, h6⟩ := digits_unique h1 h2 h4
  exact ⟨⟨h3, h5⟩, h6⟩

/-- A position at the end, after a character that is no digit. -/
theorem pos_unique_right {p q : SourcePos} {x y : Char} {r r' : Str} (h1 : isDigit x = false)
    (h2 : isDigit y = false) (h : r ++ x :: p.display = r' ++ y :: q.display) :
    SameLineCol p q ∧ x = y ∧ r = r' := by
  have e : (":".toList : Str) = [':'] := by decide
  unfold SourcePos.display at h
  have h := congrArg List.reverse h
  simp only [e, List.reverse_append, List.reverse_cons, List.append_assoc, List.singleton_append,
    List.reverse_nil, List.nil_append, List.cons_append] at h
  have hd : ∀ n, ∀ c ∈ (natDigits n).reverse, isDigit c = true :=
    fun n c hc => natDigits_isDigit (List.mem_reverse.1 hc)
  obtain ⟨h3, -, h4⟩ := span_unique (P := fun c => isDigit c = true) (hd _) (hd _) (by decide) (by decide) h
  obtain ⟨h5, h6, h7⟩ := span_unique (P := fun c => isDigit c = true) (hd _) (hd _) (by simp [h1]) (by simp [h2]) h4
  exact ⟨⟨natDigits_inj (List.reverse_inj.1 h5), natDigits_inj (List.reverse_inj.1 h3)⟩, h6,
    List.reverse_inj.1 h7⟩

/-- The first three characters of a message. -/
def tag {ε : Type} : ParseError ε → Str
  | .BadFd .. => ['f', 'i', 'l']
  | .BadIdent .. => ['n', 'o', 't']
  | .BadSubst .. => ['b', 'a', 'd']
  | .Unmatched .. => ['u', 'n', 'm']
  | .IncompleteCmd .. => ['d', 'i', 'd']
  | .Unexpected .. => ['f', 'o', 'u']
  | .UnexpectedEOF => ['u', 'n', 'e']
  | .Custom _ => []

theorem msg_tags : Msg.fd1.take 3 = ['f', 'i', 'l'] ∧ Msg.ident1.take 3 = ['n', 'o', 't'] ∧
    Msg.subst1.take 3 = ['b', 'a', 'd'] ∧ Msg.unmatched1.take 3 = ['u', 'n', 'm'] ∧
    Msg.cmd1.take 3 = ['d', 'i', 'd'] ∧ Msg.unexpected1.take 3 = ['f', 'o', 'u'] ∧
    Msg.eof.take 3 = ['u', 'n', 'e'] := by decide +kernel

theorem msg_len : 3 ≤ Msg.fd1.length ∧ 3 ≤ Msg.ident1.length ∧ 3 ≤ Msg.subst1.length ∧
    3 ≤ Msg.unmatched1.length ∧ 3 ≤ Msg.cmd1.length ∧ 3 ≤ Msg.unexpected1.length := by decide +kernel

theorem msg_heads : Msg.fd2 = ' ' :: Msg.fd2.tail ∧ Msg.fd3 = ' ' :: Msg.fd3.tail ∧
    Msg.ident2 = ':' :: Msg.ident2.tail ∧ Msg.subst2 = ':' :: Msg.subst2.tail ∧
    Msg.unmatched2 = Msg.unmatched2.dropLast ++ [' '] ∧ Msg.cmd2 = '`' :: Msg.cmd2.tail ∧
    Msg.cmd3 = ',' :: Msg.cmd3.tail ∧ Msg.cmd4 = '`' :: (Msg.cmd4.tail.dropLast ++ [' ']) ∧
    Msg.unexpected2 = [':', ' ', '\\', 'n'] ∧ Msg.unexpected3 = [':', ' '] := by decide +kernel

attribute [local irreducible] Msg.fd1 Msg.fd2 Msg.fd3 Msg.ident1 Msg.ident2 Msg.subst1 Msg.subst2
  Msg.unmatched1 Msg.unmatched2 Msg.cmd1 Msg.cmd2 Msg.cmd3 Msg.cmd4 Msg.unexpected1 Msg.unexpected2
  Msg.unexpected3 Msg.eof

theorem display_unexpected {ε : Type} (sh : ε → Str) (t : Token) (p : SourcePos) :
    (ParseError.Unexpected t p).display sh = Msg.unexpected1 ++ (p.display ++ ':' :: (' ' :: shown t)) := by
  obtain ⟨-, -, -, -, -, -, -, -, e', e⟩ := msg_heads
  simp only [ParseError.display, shown]
  split
  · rw [e']; simp
  · rw [e]; simp [Token.display]

theorem take_prefix {a b t : Str} (h : a.take 3 = t) (hl : 3 ≤ a.length) : (a ++ b).take 3 = t := by
  rw [List.take_append_of_le_length hl, h]

theorem tag_eq {ε : Type} {sh : ε → Str} {e : ParseError ε} (h : e.cause = none) : (e.display sh).take 3 = tag e := by
  obtain ⟨t1, t2, t3, t4, t5, t6, t7⟩ := msg_tags
  obtain ⟨l1, l2, l3, l4, l5, l6⟩ := msg_len
  cases e with
  | Custom e => cases h
  | Unexpected t p => rw [display_unexpected]; exact take_prefix t6 l6
  | UnexpectedEOF => exact t7
  | _ =>
    simp only [ParseError.display, List.append_assoc]
    exact take_prefix ‹_› ‹_›

theorem keyword_ticks : ∀ x ∈ lackable, '`' ∉ x.1 ∧ '`' ∉ x.2 := by decide +kernel

/-- **C43.** Two errors that are not the builder's have the same message if and only if they are of the same
kind, at the same lines and columns, and about the same texts. (An unexpected newline is shown like the
text `\n`.) -/
theorem C43_message_tells_error {ε : Type} (sh : ε → Str) (e e' : ParseError ε) (h : e.cause = none)
    (h' : e'.cause = none) (hp : ∀ c p k q, e = .IncompleteCmd c p k q → (c, k) ∈ lackable)
    (hp' : ∀ c p k q, e' = .IncompleteCmd c p k q → (c, k) ∈ lackable) :
    e.display sh = e'.display sh ↔ SameReport e e' := by
  have hpos : ∀ {p q : SourcePos}, SameLineCol p q → p.display = q.display := by
    rintro p q ⟨h1, h2⟩
    unfold SourcePos.display
    rw [h1, h2]
  obtain ⟨m1, m2, m3, m4, m5, m6, m7, m8, -, -⟩ := msg_heads
  constructor
  · intro he
    have ht : tag e = tag e' := by rw [← tag_eq (sh := sh) h, ← tag_eq (sh := sh) h', he]
    cases e with
    | Custom x => cases h
    | BadFd p q =>
      cases e' with
      | BadFd p' q' =>
        simp only [ParseError.display, List.append_assoc] at he
        have he := List.append_cancel_left he
        rw [m1, m2, List.cons_append, List.cons_append] at he
        obtain ⟨h1, -, h2⟩ := pos_unique (by decide) (by decide) he
        obtain ⟨h3, -⟩ := pos_unique (by decide) (by decide) (List.append_cancel_left h2)
        exact ⟨h1, h3⟩
      | Custom x => cases h'
      | _ => simp [tag] at ht
    | BadIdent s p =>
      cases e' with
      | BadIdent s' p' =>
        simp only [ParseError.display, List.append_assoc] at he
        have he := List.append_cancel_left he
        rw [m3, List.cons_append, List.cons_append] at he
        obtain ⟨h1, -, h2⟩ := pos_unique (by decide) (by decide) he
        exact ⟨List.append_cancel_left h2, h1⟩
      | Custom x => cases h'
      | _ => simp [tag] at ht
    | BadSubst t p =>
      cases e' with
      | BadSubst t' p' =>
        simp only [ParseError.display, List.append_assoc] at he
        have he := List.append_cancel_left he
        rw [m4, List.cons_append, List.cons_append] at he
        obtain ⟨h1, -, h2⟩ := pos_unique (by decide) (by decide) he
        exact ⟨List.append_cancel_left h2, h1⟩
      | Custom x => cases h'
      | _ => simp [tag] at ht
    | Unmatched t p =>
      cases e' with
      | Unmatched t' p' =>
        simp only [ParseError.display, List.append_assoc] at he
        have he := List.append_cancel_left he
        rw [m5, List.append_assoc, List.append_assoc, ← List.append_assoc (Token.display t),
          ← List.append_assoc (Token.display t')] at he
        obtain ⟨h1, -, h2⟩ := pos_unique_right (x := ' ') (y := ' ') (by decide) (by decide) he
        exact ⟨List.append_cancel_right h2, h1⟩
      | Custom x => cases h'
      | _ => simp [tag] at ht
    | IncompleteCmd c p k q =>
      cases e' with
      | IncompleteCmd c' p' k' q' =>
        obtain ⟨t1, t2⟩ := keyword_ticks _ (hp c p k q rfl)
        obtain ⟨t1', t2'⟩ := keyword_ticks _ (hp' c' p' k' q' rfl)
        have hno : ∀ {s : Str}, '`' ∉ s → ∀ x ∈ s, x ≠ '`' := fun h x hx hx' => h (hx' ▸ hx)
        simp only [ParseError.display, List.append_assoc] at he
        have he := List.append_cancel_left he
        rw [m6, List.cons_append, List.cons_append] at he
        obtain ⟨rfl, -, he⟩ := span_unique (P := (· ≠ '`')) (hno t2) (hno t2') (by simp) (by simp) he
        have he := List.append_cancel_left he
        rw [m7, List.cons_append, List.cons_append] at he
        obtain ⟨h1, -, he⟩ := pos_unique (by decide) (by decide) he
        have he := List.append_cancel_left he
        rw [m8, List.cons_append, List.cons_append] at he
        obtain ⟨rfl, -, he⟩ := span_unique (P := (· ≠ '`')) (hno t1) (hno t1') (by simp) (by simp) he
        rw [List.append_assoc, List.append_assoc] at he
        obtain ⟨h2, -, -⟩ := pos_unique_right (x := ' ') (y := ' ') (by decide) (by decide) he
        exact ⟨rfl, h2, rfl, h1⟩
      | Custom x => cases h'
      | _ => simp [tag] at ht
    | Unexpected t p =>
      cases e' with
      | Unexpected t' p' =>
        rw [display_unexpected, display_unexpected] at he
        obtain ⟨h1, -, h2⟩ := pos_unique (by decide) (by decide) (List.append_cancel_left he)
        exact ⟨by simpa using h2, h1⟩
      | Custom x => cases h'
      | _ => simp [tag] at ht
    | UnexpectedEOF =>
      cases e' with
      | UnexpectedEOF => trivial
      | Custom x => cases h'
      | _ => simp [tag] at ht
  · intro hs
    cases e with
    | BadFd p q => cases e' with
      | BadFd p' q' => simp only [ParseError.display, hpos hs.1, hpos hs.2]
      | _ => exact hs.elim
    | BadIdent s p => cases e' with
      | BadIdent p' q' => simp only [ParseError.display, hs.1, hpos hs.2]
      | _ => exact hs.elim
    | BadSubst s p => cases e' with
      | BadSubst p' q' => simp only [ParseError.display, Token.display, hs.1, hpos hs.2]
      | _ => exact hs.elim
    | Unmatched s p => cases e' with
      | Unmatched p' q' => simp only [ParseError.display, Token.display, hs.1, hpos hs.2]
      | _ => exact hs.elim
    | IncompleteCmd s p => cases e' with
      | IncompleteCmd p' q' =>
        obtain ⟨rfl, h1, rfl, h2⟩ := hs
        simp only [ParseError.display, hpos h1, hpos h2]
      | _ => exact hs.elim
    | Unexpected t p => cases e' with
      | Unexpected t' p' => rw [display_unexpected, display_unexpected, hs.1, hpos hs.2]
      | _ => exact hs.elim
    | UnexpectedEOF => cases e' with
      | UnexpectedEOF => rfl
      | _ => exact hs.elim
    | Custom x => cases h

/-- **C43** for the errors of parsing methods, on any inputs. -/
theorem C43_messages_of_methods {B : Builder} (sh : B.Error → Str) (m m' : Method) (s s' : PSt CIter B)
    (e e' : ParseError B.Error) (h : (m.run s).1 = .err e) (h' : (m'.run s').1 = .err e')
    (hc : e.cause = none) (hc' : e'.cause = none) : e.display sh = e'.display sh ↔ SameReport e e' :=
  C43_message_tells_error sh e e' hc hc' (fun c p k q he => C34_pairs m s c k p q (he ▸ h))
    (fun c p k q he => C34_pairs m' s' c k p q (he ▸ h'))

/-- **C43.** The message and the cause of a builder's error are that error's. -/
theorem C43_custom {ε : Type} (sh : ε → Str) (e : ParseError ε) (x : ε) (h : e.cause = some x) :
    e = .Custom x ∧ e.display sh = sh x := by
  cases e <;> cases h
  exact ⟨rfl, rfl⟩

theorem natDigits_oneLine (n : Nat) : '\n' ∉ natDigits n :=
  fun h => absurd (natDigits_isDigit h) (by decide)

theorem display_oneLine (p : SourcePos) : '\n' ∉ p.display := by
  have e : (":".toList : Str) = [':'] := by decide
  unfold SourcePos.display
  rw [e]
  simp [natDigits_oneLine]

theorem msg_oneLine : ∀ x ∈ [Msg.fd1, Msg.fd2, Msg.fd3, Msg.ident1, Msg.ident2, Msg.subst1, Msg.subst2,
    Msg.unmatched1, Msg.unmatched2, Msg.cmd1, Msg.cmd2, Msg.cmd3, Msg.cmd4, Msg.unexpected1, Msg.unexpected2,
    Msg.unexpected3, Msg.eof], '\n' ∉ x := by decide +kernel

theorem keyword_oneLine : ∀ x ∈ lackable, '\n' ∉ x.1 ∧ '\n' ∉ x.2 := by decide +kernel

theorem trimmed_nlOk {ts : List Token} (h : ∀ t ∈ ts, NlOk t) {t : Token} (ht : t ∈ ts ∨ Trimmed ts t) :
    NlOk t := by
  rcases ht with ht | ⟨w, rfl, w0, h1, h2⟩
  · exact h t ht
  · intro _ hm
    exact h _ h1 (by simp) (h2.mem hm)

/-- **C43.** After any calls, failed ones included on a parser for a source, the message of an error that is not the
builder's is a single line, except for a newline inside of a parameter substitution. -/
theorem C43_one_line {B : Builder} (sh : B.Error → Str) (cc : CharClass) (src : Str) (b : B.State)
    (s : PSt CIter B) (hs : History (PSt.new (lex cc src) b) s) (m : Method) (err : ParseError B.Error)
    (h : (m.run s).1 = .err err) (hc : err.cause = none) (hn : ∀ p, err ≠ .BadSubst .Newline p) :
    '\n' ∉ err.display sh := by
  have key : ∀ t p, reported err = some (t, p) → t ≠ .Newline → '\n' ∉ t.asStr := by
    intro t p ht
    exact trimmed_nlOk (lex_nlOk cc src) (C40_reported_token_in_input _ b s hs m err h t p ht)
  have hm := msg_oneLine
  simp only [List.mem_cons, List.not_mem_nil, or_false, forall_eq_or_imp, forall_eq] at hm
  obtain ⟨a1, a2, a3, a4, a5, a6, a7, a8, a9, a10, a11, a12, a13, a14, a15, a16, a17⟩ := hm
  cases err with
  | Custom x => cases hc
  | BadFd p q => simp [ParseError.display, display_oneLine, *]
  | BadIdent x p =>
    have := key _ _ rfl (by simp)
    simp only [Token.asStr] at this
    simp [ParseError.display, display_oneLine, *]
  | BadSubst t p =>
    have := key t p rfl (fun e => hn p (by rw [e]))
    simp [ParseError.display, Token.display, display_oneLine, *]
  | Unmatched t p =>
    have ht : t ≠ .Newline := by
      rintro rfl
      have := C40_unmatched_is_opener m s _ p h
      simp [openers] at this
    have := key t p rfl ht
    simp [ParseError.display, Token.display, display_oneLine, *]
  | IncompleteCmd c p k q =>
    obtain ⟨h1, h2⟩ := keyword_oneLine _ (C34_pairs m s c k p q h)
    simp only at h1 h2
    simp [ParseError.display, display_oneLine, *]
  | Unexpected t p =>
    simp only [ParseError.display]
    split
    · simp [display_oneLine, *]
    · rename_i ht
      have := key t p rfl ht
      simp [Token.display, display_oneLine, *]
  | UnexpectedEOF => exact a17

/-- A position as a user reads it: the line and the column, in decimal digits. -/
def Spec.lineCol (p : SourcePos) : Str := Nat.toDigits 10 p.line ++ ':' :: Nat.toDigits 10 p.col

theorem lineCol_eq (p : SourcePos) : p.display = lineCol p := by
  have e : (":".toList : Str) = [':'] := by decide
  unfold SourcePos.display lineCol natDigits
  rw [e]; simp

/-- **C43.** Every position that an error has is in its message, as a line and a column. -/
theorem C43_positions_shown {ε : Type} (sh : ε → Str) (e : ParseError ε) :
    ∀ p ∈ positions e, lineCol p <:+: e.display sh := by
  intro p hp
  rw [← lineCol_eq]
  have key : ∀ a b c : Str, b <:+: a ++ (b ++ c) := fun a b c => ⟨a, c, by simp⟩
  have key' : ∀ a b : Str, b <:+: a ++ b := fun a b => ⟨a, [], by simp⟩
  cases e with
  | Custom x => simp [positions] at hp
  | UnexpectedEOF => simp [positions] at hp
  | Unexpected t q =>
    obtain rfl : _ = _ := by simpa [positions] using hp
    rw [display_unexpected]
    exact key _ _ _
  | BadSubst t q =>
    obtain rfl : _ = _ := by simpa [positions] using hp
    simp only [ParseError.display, List.append_assoc]
    exact key _ _ _
  | BadIdent t q =>
    obtain rfl : _ = _ := by simpa [positions] using hp
    simp only [ParseError.display, List.append_assoc]
    exact key _ _ _
  | Unmatched t q =>
    obtain rfl : _ = _ := by simpa [positions] using hp
    simp only [ParseError.display]
    exact key' _ _
  | BadFd q r =>
    simp only [positions, List.mem_cons, List.not_mem_nil, or_false] at hp
    simp only [ParseError.display, List.append_assoc]
    rcases hp with rfl | rfl
    · exact key _ _ _
    · rw [← List.append_assoc, ← List.append_assoc]
      exact key _ _ _
  | IncompleteCmd c q k r =>
    simp only [positions, List.mem_cons, List.not_mem_nil, or_false] at hp
    simp only [ParseError.display, List.append_assoc]
    rcases hp with rfl | rfl
    · simp only [← List.append_assoc]
      exact key' _ _
    · rw [← List.append_assoc, ← List.append_assoc]
      exact key _ _ _

/-- **C43.** The message of an error about an incomplete command says what is missing and where, and in which
command, and where that starts. -/
theorem C43_incomplete_shown {ε : Type} (sh : ε → Str) (c k : Str) (p q : SourcePos) :
    (ParseError.IncompleteCmd (ε := ε) c p k q).display sh =
      "did not find `".toList ++ k ++ "` keyword on line ".toList ++ lineCol q ++
      ", in `".toList ++ c ++ "` command which starts on line ".toList ++ lineCol p := by
  rw [← lineCol_eq, ← lineCol_eq]
  exact incomplete_display sh c k p q

/-- **C43.** The text of the token that an error names is in its message, a newline as a backslash and `n`. -/
theorem C43_token_shown {ε : Type} (sh : ε → Str) (e : ParseError ε) (t : Token) (p : SourcePos)
    (h : reported e = some (t, p)) : t.asStr <:+: e.display sh ∨
      e = .Unexpected .Newline p ∧ ['\\', 'n'] <:+: e.display sh := by
  have key : ∀ a b c : Str, b <:+: a ++ (b ++ c) := fun a b c => ⟨a, c, by simp⟩
  have key' : ∀ a b : Str, b <:+: a ++ b := fun a b => ⟨a, [], by simp⟩
  cases e with
  | Unexpected t q =>
    cases h
    rw [display_unexpected]
    by_cases ht : t = .Newline
    · subst ht
      exact .inr ⟨rfl, ⟨Msg.unexpected1 ++ p.display ++ [':', ' '], [], by simp [shown]⟩⟩
    · exact .inl ⟨Msg.unexpected1 ++ p.display ++ [':', ' '], [], by simp [shown, ht]⟩
  | BadSubst t q => cases h; exact .inl (key' _ _)
  | BadIdent t q => cases h; exact .inl (key' _ _)
  | Unmatched t q =>
    cases h
    simp only [ParseError.display, List.append_assoc]
    exact .inl (key _ _ _)
  | _ => cases h

/-- **C40** for sources and messages: the text of the token that an error names is in the source, after some text, and the
message has the line and the column in the source after that text. The inputs are those of C40. -/
theorem C40_message_points_into_source_partial {B : Builder} (sh : B.Error → Str) (cc : CharClass) (src : Str)
    (b : B.State) (h1 : TruePositions (lex cc src)) (s : PSt CIter B) (hs : History (PSt.new (lex cc src) b) s)
    (m : Method) (hm : m = .braceGroup → Gram.NoBlank s.tokens) (err : ParseError B.Error)
    (h : (m.run s).1 = .err err) (t : Token) (p : SourcePos) (hr : reported err = some (t, p)) :
    ∃ pre suf, src = pre ++ t.asStr ++ suf ∧
      Nat.toDigits 10 (1 + pre.count '\n') ++ ':' ::
        Nat.toDigits 10 (1 + Str.byteLen (pre.reverse.takeWhile (· ≠ '\n'))) <:+: err.display sh := by
  obtain ⟨pre, suf, h2, rfl⟩ := C40_reported_token_in_source_partial cc src b h1 s hs m hm err h t p hr
  refine ⟨pre, suf, h2, C43_positions_shown sh err (posOf pre) ?_⟩
  cases err with
  | Unexpected t q => cases hr; simp [positions]
  | BadSubst t q => cases hr; simp [positions]
  | BadIdent t q => cases hr; simp [positions]
  | Unmatched t q => cases hr; simp [positions]
  | _ => cases hr

/-- The message of the error that `complete_command` gives for a source. -/
def messageOf (src : String) : Option Str :=
  match (Method.completeCommand.run (parserOf src)).1 with
  | .err e => some (e.display fun _ => [])
  | _ => none

/-- Messages of each kind that a parsing method gives; the last but one is the error that
`C43_one_line` leaves out: it has two lines. -/
theorem C43_examples :
    messageOf "\n echo ${a" = some "unmatched `{` starting on line 2:8".toList ∧
    messageOf "\n  ;" = some "found unexpected token on line 2:3: ;".toList ∧
    messageOf "! \n" = some "found unexpected token on line 1:3: \\n".toList ∧
    messageOf "if a\nfi" = some
      "did not find `then` keyword on line 2:3, in `if` command which starts on line 1:1".toList ∧
    messageOf "! " = some "unexpected end of input".toList ∧
    messageOf "b >&c" = some
      "file descriptor found between lines 1:5 - 1:6 cannot possibly be a valid".toList ∧
    messageOf "for é in a" = some "not a valid identifier 1:5: é".toList ∧
    messageOf "${\n" = some "bad substitution 1:3: invalid token: \n".toList ∧
    (∃ e, (Method.completeCommand.run (parserOf "! ")).1 = .err e ∧ e.cause = none) := by
  refine ⟨by decide +kernel, by decide +kernel, by decide +kernel, by decide +kernel, by decide +kernel,
    by decide +kernel, by decide +kernel, by decide +kernel, ?_⟩
  have h : messageOf "! " ≠ none := by decide +kernel
  unfold messageOf at h
  generalize (Method.completeCommand.run (parserOf "! ")).1 = z at h
  cases z with
  | err e => exact ⟨e, rfl, by cases e <;> first | rfl | (rename_i x; cases x)⟩
  | _ => exact absurd rfl h

end Conch
