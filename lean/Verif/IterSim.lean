import Verif.IterRefine
import Verif.Balanced
/-!
# Simulations between token streams

`StreamSim I J` relates two implementations of the stream interface; everything built on the
interface then behaves the same. The instance `cSim` relates the code's `TokenIter` with the list
of positioned tokens.
-/
namespace Conch

/-- A relation between two stream implementations that all operations respect. -/
structure StreamSim (I J : Type) [TokStream I] [TokStream J] where
  R : I → J → Prop
  RM : TokStream.MP I → TokStream.MP J → Prop
  pos : ∀ {i j}, R i j → TokStream.pos i = TokStream.pos j
  peek : ∀ {i j}, R i j → (TokStream.peek i).1 = (TokStream.peek j).1 ∧
    R (TokStream.peek i).2 (TokStream.peek j).2
  next : ∀ {i j}, R i j → (TokStream.next i).1 = (TokStream.next j).1 ∧
    R (TokStream.next i).2 (TokStream.next j).2
  mpNew : ∀ {i j}, R i j → RM (TokStream.mpNew i) (TokStream.mpNew j)
  mpNext : ∀ {i j}, RM i j → (TokStream.mpNext i).1 = (TokStream.mpNext j).1 ∧
    RM (TokStream.mpNext i).2 (TokStream.mpNext j).2
  mpDrop : ∀ {i j}, RM i j → R (TokStream.mpDrop i) (TokStream.mpDrop j)
  bufferFirst : ∀ {i j} (ts p), R i j →
    R (TokStream.bufferFirst i ts p) (TokStream.bufferFirst j ts p)
  withPosition : ∀ p, R (TokStream.withPosition p) (TokStream.withPosition p)
  ofTokens : ∀ ts, R (TokStream.ofTokens ts) (TokStream.ofTokens ts)
  len : ∀ {i j}, R i j → TokStream.len i = TokStream.len j

theorem CIter.next_eq (it : CIter) : it.next.1 = it.1.abs.next.1 ∧
    it.next.2.1.abs = it.1.abs.next.2 := by
  obtain ⟨it', h1, h2, h3⟩ := TokenIter.next_eq it.2
  unfold CIter.next
  split
  · rename_i r it'' h
    rw [h1] at h; cases h
    exact ⟨rfl, h3⟩
  · rename_i h; rw [h1] at h; cases h

theorem CIter.peek_eq (it : CIter) : it.peek.1 = it.1.abs.peek ∧
    it.peek.2.1.abs = it.1.abs := by
  obtain ⟨it', h1, h2, h3⟩ := TokenIter.peek_eq it.2
  unfold CIter.peek
  split
  · rename_i r it'' h
    rw [h1] at h; cases h
    exact ⟨rfl, h3⟩
  · rename_i h; rw [h1] at h; cases h

theorem TokenIter.len_eq (it : TokenIter) : it.len = it.abs.rest.length := by
  have h : it.abs.rest.length = (Multipeek.toks it).length := by
    rw [Multipeek.toks_eq, AIter.toks, List.length_map]
  have h2 : ∀ l : List TokenOrPos, (Multipeek.bufToks l).length = (l.filter (·.isTok)).length := by
    intro l
    induction l with
    | nil => rfl
    | cons x l ih => cases x <;> simp [Multipeek.bufToks, TokenOrPos.isTok, ih]
  rw [h, Multipeek.toks, List.length_append, h2]; rfl

/-- The code's stream simulates the list of positioned tokens. -/
def cSim : StreamSim CIter AIter where
  R c a := c.1.abs = a
  RM m a := Multipeek.abs m = a
  pos := by rintro i _ rfl; exact TokenIter.pos_eq i.2
  peek := by rintro i _ rfl; exact CIter.peek_eq i
  next := by rintro i _ rfl; exact CIter.next_eq i
  mpNew := by rintro i _ rfl; exact Multipeek.abs_new i.1
  mpNext := by rintro i _ rfl; exact Multipeek.peekNext_abs i
  mpDrop := by rintro i _ rfl; rfl
  bufferFirst := by rintro i _ ts p rfl; exact TokenIter.abs_bufferTokens _ _ _
  withPosition p := rfl
  ofTokens ts := rfl
  len := by rintro i _ rfl; exact TokenIter.len_eq _

/-- Equality is a simulation. -/
def StreamSim.refl (I : Type) [TokStream I] : StreamSim I I where
  R i j := i = j
  RM i j := i = j
  pos := by rintro i _ rfl; rfl
  peek := by rintro i _ rfl; exact ⟨rfl, rfl⟩
  next := by rintro i _ rfl; exact ⟨rfl, rfl⟩
  mpNew := by rintro i _ rfl; rfl
  mpNext := by rintro i _ rfl; exact ⟨rfl, rfl⟩
  mpDrop := by rintro i _ rfl; rfl
  bufferFirst := by rintro i _ ts p rfl; rfl
  withPosition p := rfl
  ofTokens ts := rfl
  len := by rintro i _ rfl; rfl

namespace StreamSim
variable {I J : Type} [TokStream I] [TokStream J] (S : StreamSim I J)

/-- Related scanners: the streams are related, everything else is equal. -/
def RB (b : Balanced I) (a : Balanced J) : Prop :=
  S.R b.iter a.iter ∧ b.escaped = a.escaped ∧ b.stack = a.stack ∧ b.skipLast = a.skipLast ∧
    b.done = a.done ∧ b.pos = a.pos

theorem balanced_new {i : I} {j : J} (h : S.R i j) (d) : S.RB (Balanced.new i d) (Balanced.new j d) :=
  ⟨h, rfl, rfl, rfl, rfl, S.pos h⟩

theorem balanced_nextPlain {b : Balanced I} {a : Balanced J} (h : S.RB b a) :
    b.nextPlain.1 = a.nextPlain.1 ∧ S.RB b.nextPlain.2 a.nextPlain.2 := by
  obtain ⟨it, esc, st, sk, dn, ps⟩ := b
  obtain ⟨it', esc', st', sk', dn', ps'⟩ := a
  obtain ⟨hR, h1, h2, h3, h4, h5⟩ := h
  dsimp only at hR h1 h2 h3 h4 h5
  subst h1 h2 h3 h4 h5
  obtain ⟨e1, r1⟩ := S.next hR
  have p0 := S.pos hR
  have p1 := S.pos r1
  unfold Balanced.nextPlain
  simp only
  rw [e1]
  generalize (TokStream.next it').1 = t
  cases t with
  | none => cases st <;> exact ⟨rfl, r1, rfl, rfl, rfl, rfl, p1⟩
  | some t =>
    cases t with
    | Backslash =>
      obtain ⟨e2, r2⟩ := S.next r1
      have p2 := S.pos r2
      refine ⟨rfl, r2, ?_, rfl, rfl, rfl, p1⟩
      simp only [e2, p2]
    | Backtick => exact ⟨rfl, r1, rfl, by simp [p0], rfl, rfl, p1⟩
    | DoubleQuote => exact ⟨rfl, r1, rfl, by simp [p0], rfl, rfl, p1⟩
    | ParenOpen => exact ⟨rfl, r1, rfl, by simp [p0], rfl, rfl, p1⟩
    | SingleQuote =>
      simp only
      split
      · exact ⟨trivial, r1, rfl, rfl, rfl, rfl, p1⟩
      · exact ⟨trivial, r1, rfl, by simp [p0], rfl, rfl, p1⟩
    | Dollar =>
      obtain ⟨e2, r2⟩ := S.peek r1
      have p2 := S.pos r2
      simp only [e2]
      split
      · exact ⟨trivial, r2, rfl, by simp [p1], rfl, rfl, p2⟩
      · split
        · exact ⟨trivial, r2, rfl, rfl, rfl, rfl, p2⟩
        · exact ⟨trivial, r2, rfl, rfl, rfl, rfl, p2⟩
    | _ => exact ⟨rfl, r1, rfl, rfl, rfl, rfl, p1⟩

theorem balanced_next {b : Balanced I} {a : Balanced J} (h : S.RB b a) :
    b.next.1 = a.next.1 ∧ S.RB b.next.2 a.next.2 := by
  obtain ⟨it, esc, st, sk, dn, ps⟩ := b
  obtain ⟨it', esc', st', sk', dn', ps'⟩ := a
  have h0 := h
  obtain ⟨hR, h1, h2, h3, h4, h5⟩ := h
  dsimp only at hR h1 h2 h3 h4 h5
  subst h1 h2 h3 h4 h5
  unfold Balanced.next
  cases esc with
  | some x => exact ⟨rfl, hR, rfl, rfl, rfl, rfl, rfl⟩
  | none =>
    simp only
    cases dn with
    | true => exact ⟨rfl, hR, rfl, rfl, rfl, rfl, rfl⟩
    | false =>
      obtain ⟨e1, r1⟩ := S.peek hR
      obtain ⟨e2, r2⟩ := S.next r1
      have p2 := S.pos r2
      simp only [Bool.false_eq_true, if_false, e1]
      split
      · exact ⟨by simp only [e2], r2, rfl, rfl, rfl, rfl, p2⟩
      · rcases st with _ | ⟨⟨c, p⟩, st⟩
        · exact S.balanced_nextPlain ⟨r1, rfl, rfl, rfl, rfl, rfl⟩
        · cases c with
          | SingleQuote => exact ⟨by simp only [e2], r2, rfl, rfl, rfl, rfl, p2⟩
          | _ => exact S.balanced_nextPlain ⟨r1, rfl, rfl, rfl, rfl, rfl⟩

theorem balanced_collectN (n : Nat) {b : Balanced I} {a : Balanced J} (h : S.RB b a) :
    (b.collectN n).1 = (a.collectN n).1 ∧ S.RB (b.collectN n).2 (a.collectN n).2 := by
  induction n generalizing b a with
  | zero => exact ⟨rfl, h⟩
  | succ n ih =>
    obtain ⟨h1, h2⟩ := S.balanced_next h
    unfold Balanced.collectN
    generalize b.next = x at h1 h2
    generalize a.next = y at h1 h2
    obtain ⟨x, b'⟩ := x
    obtain ⟨y, a'⟩ := y
    simp only at h1 h2
    subst h1
    rcases x with _ | _ | t
    · exact ⟨rfl, h2⟩
    · exact ⟨rfl, h2⟩
    · obtain ⟨h3, h4⟩ := ih h2
      simp only
      generalize b'.collectN n = u at h3 h4
      generalize a'.collectN n = v at h3 h4
      obtain ⟨u, b''⟩ := u
      obtain ⟨v, a''⟩ := v
      simp only at h3 h4
      subst h3
      cases u <;> exact ⟨rfl, h4⟩

theorem balanced_collect {b : Balanced I} {a : Balanced J} (h : S.RB b a) :
    b.collect.1 = a.collect.1 ∧ S.RB b.collect.2 a.collect.2 := by
  unfold Balanced.collect
  rw [S.len h.1]; exact S.balanced_collectN _ h

theorem takeBalanced {i : I} {j : J} (h : S.R i j) : (takeBalanced i).1 = (takeBalanced j).1 ∧
    S.R (takeBalanced i).2 (takeBalanced j).2 :=
  have h := S.balanced_collect (S.balanced_new h none)
  ⟨h.1, h.2.1⟩

theorem takeSingleQuoted {i : I} {j : J} (h : S.R i j) (p : SourcePos) :
    (takeSingleQuoted i p).1 = (takeSingleQuoted j p).1 ∧
    S.R (takeSingleQuoted i p).2 (takeSingleQuoted j p).2 :=
  have h := S.balanced_collect (S.balanced_new h (some (.SingleQuote, p)))
  ⟨h.1, h.2.1⟩

/-- Related removers. -/
def RBR (b : BacktickRemover I) (a : BacktickRemover J) : Prop :=
  S.RB b.iter a.iter ∧ b.peeked = a.peeked ∧ b.done = a.done

theorem remover_next {b : BacktickRemover I} {a : BacktickRemover J} (h : S.RBR b a) :
    b.next.1 = a.next.1 ∧ S.RBR b.next.2 a.next.2 := by
  obtain ⟨it, pk, dn⟩ := b
  obtain ⟨it', pk', dn'⟩ := a
  obtain ⟨hR, h1, h2⟩ := h
  dsimp only at hR h1 h2
  subst h1 h2
  unfold BacktickRemover.next
  cases pk with
  | some x => exact ⟨rfl, hR, rfl, rfl⟩
  | none =>
    cases dn with
    | true => exact ⟨rfl, hR, rfl, rfl⟩
    | false =>
      simp only [Bool.false_eq_true, if_false]
      obtain ⟨h1, h2⟩ := S.balanced_next hR
      generalize it.next = x at h1 h2
      generalize it'.next = y at h1 h2
      obtain ⟨x, b⟩ := x
      obtain ⟨y, a⟩ := y
      simp only at h1 h2
      subst h1
      rcases x with _ | _ | t
      · exact ⟨rfl, h2, rfl, rfl⟩
      · exact ⟨rfl, h2, rfl, rfl⟩
      · by_cases ht : t = .Backslash
        · subst ht
          simp only
          obtain ⟨h3, h4⟩ := S.balanced_next h2
          generalize b.next = x at h3 h4
          generalize a.next = y at h3 h4
          obtain ⟨x, b⟩ := x
          obtain ⟨y, a⟩ := y
          simp only at h3 h4
          subst h3
          rcases x with _ | _ | t
          · exact ⟨rfl, h4, rfl, rfl⟩
          · exact ⟨rfl, h4, rfl, rfl⟩
          · simp only
            split
            · exact ⟨rfl, h4, rfl, rfl⟩
            · exact ⟨rfl, h4, rfl, rfl⟩
        · cases t <;> first | exact ⟨rfl, h2, rfl, rfl⟩ | exact absurd rfl ht

theorem remover_collectN (n : Nat) {b : BacktickRemover I} {a : BacktickRemover J}
    (h : S.RBR b a) :
    (b.collectN n).1 = (a.collectN n).1 ∧ S.RBR (b.collectN n).2 (a.collectN n).2 := by
  induction n generalizing b a with
  | zero => exact ⟨rfl, h⟩
  | succ n ih =>
    obtain ⟨h1, h2⟩ := S.remover_next h
    unfold BacktickRemover.collectN
    generalize b.next = x at h1 h2
    generalize a.next = y at h1 h2
    obtain ⟨x, b'⟩ := x
    obtain ⟨y, a'⟩ := y
    simp only at h1 h2
    subst h1
    rcases x with _ | _ | t
    · exact ⟨rfl, h2⟩
    · exact ⟨rfl, h2⟩
    · obtain ⟨h3, h4⟩ := ih h2
      simp only
      generalize b'.collectN n = u at h3 h4
      generalize a'.collectN n = v at h3 h4
      obtain ⟨u, b''⟩ := u
      obtain ⟨v, a''⟩ := v
      simp only at h3 h4
      subst h3
      cases u <;> exact ⟨rfl, h4⟩

theorem takeBacktickedRemoved {i : I} {j : J} (h : S.R i j) (p : SourcePos) :
    (takeBacktickedRemoved i p).1 = (takeBacktickedRemoved j p).1 ∧
    S.R (takeBacktickedRemoved i p).2 (takeBacktickedRemoved j p).2 := by
  have h0 : S.RBR (BacktickRemover.new (backticked i p)) (BacktickRemover.new (backticked j p)) :=
    ⟨S.balanced_new h _, rfl, rfl⟩
  have h1 := S.remover_collectN (TokStream.len i + 2) h0
  have e : TokStream.len i = TokStream.len j := S.len h
  unfold Conch.takeBacktickedRemoved BacktickRemover.collect
  refine ⟨?_, ?_⟩
  · have := h1.1
    show (BacktickRemover.collectN (TokStream.len i + 2) _).1 =
      (BacktickRemover.collectN (TokStream.len j + 2) _).1
    rw [← e]; exact this
  · have := h1.2.1.1
    show S.R _ (BacktickRemover.collectN (TokStream.len j + 2) _).2.iter.iter
    rw [← e]; exact this

theorem chunkLoop (n : Nat) (cs chunk start) {b : Balanced I} {a : Balanced J} (h : S.RB b a) :
    (chunkLoop n cs chunk start b).1 = (chunkLoop n cs chunk start a).1 ∧
    S.RB (chunkLoop n cs chunk start b).2 (chunkLoop n cs chunk start a).2 := by
  induction n generalizing cs chunk start b a with
  | zero => exact ⟨rfl, h⟩
  | succ n ih =>
    unfold Conch.chunkLoop
    obtain ⟨h1, h2⟩ := S.balanced_next h
    generalize b.next = x at h1 h2
    generalize a.next = y at h1 h2
    obtain ⟨x, b⟩ := x
    obtain ⟨y, a⟩ := y
    simp only at h1 h2
    subst h1
    rcases x with _ | _ | t
    · exact ⟨rfl, h2⟩
    · exact ⟨rfl, h2⟩
    · by_cases ht : t = .Backslash
      · subst ht
        simp only
        obtain ⟨h3, h4⟩ := S.balanced_next h2
        have hp := h2.2.2.2.2.2
        rw [hp]
        generalize b.next = x at h3 h4
        generalize a.next = y at h3 h4
        obtain ⟨x, b⟩ := x
        obtain ⟨y, a⟩ := y
        simp only at h3 h4
        subst h3
        rcases x with _ | _ | t
        · exact ih _ _ _ h4
        · exact ⟨rfl, h4⟩
        · simp only
          split
          · exact ih _ _ _ h4
          · exact ih _ _ _ h4
      · cases t <;> first | exact ih _ _ _ h2 | exact absurd rfl ht

/-- Related outcomes of `create_token_iter`. -/
inductive RSub : SubIter I → SubIter J → Prop
  | ok {i j} : S.R i j → RSub (.ok i) (.ok j)
  | unmatched {e} : RSub (.unmatched e) (.unmatched e)
  | fuel : RSub .fuel .fuel

theorem tokenIterFromBackticked {i : I} {j : J} (h : S.R i j) (p : SourcePos) :
    S.RSub (tokenIterFromBackticked i p).1 (tokenIterFromBackticked j p).1 ∧
    S.R (tokenIterFromBackticked i p).2 (tokenIterFromBackticked j p).2 := by
  have h0 := S.balanced_new h (some (.Backtick, p))
  have h1 := S.chunkLoop (TokStream.len i + 2) [] [] (TokStream.pos j) h0
  have e : TokStream.len i = TokStream.len j := S.len h
  have e' : TokStream.pos i = TokStream.pos j := S.pos h
  unfold Conch.tokenIterFromBackticked createTokenIter
  have e1 : TokStream.len (backticked i p).iter = TokStream.len i := rfl
  have e2 : TokStream.len (backticked j p).iter = TokStream.len i := e.symm
  have e3 : (backticked i p).pos = TokStream.pos j := e'
  have e4 : (backticked j p).pos = TokStream.pos j := rfl
  rw [e1, e2, e3, e4]
  change (Conch.chunkLoop _ _ _ _ (backticked i p)).1 = (Conch.chunkLoop _ _ _ _ (backticked j p)).1
    ∧ S.RB (Conch.chunkLoop _ _ _ _ (backticked i p)).2 (Conch.chunkLoop _ _ _ _ (backticked j p)).2
    at h1
  generalize Conch.chunkLoop _ _ _ _ (backticked i p) = x at h1
  generalize Conch.chunkLoop _ _ _ _ (backticked j p) = y at h1
  obtain ⟨x, b⟩ := x
  obtain ⟨y, a⟩ := y
  obtain ⟨h2, h3⟩ := h1
  simp only at h2 h3
  subst h2
  cases x with
  | fuel => exact ⟨.fuel, h3.1⟩
  | unmatched => exact ⟨.unmatched, h3.1⟩
  | ok cs =>
    refine ⟨.ok ?_, h3.1⟩
    rw [h3.2.2.2.2.2]
    induction cs with
    | nil => exact S.withPosition _
    | cons c cs ih => exact S.bufferFirst _ _ ih

end StreamSim
end Conch
