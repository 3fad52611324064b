import Verif.CallSpec
import Verif.ErrSpec
import Verif.ParserCmd
import Verif.PartSpec
import Verif.PropsBalanced
/-!
# A program logic for the parser

`Tr T m s Q`: started in `s`, the computation `m` does not run out of budget; if it returns, the
invariants of the theory `T` hold, no token was added, the position after the last token is the
same, and `Q` holds; if it fails, the error and the builder are as `T` allows, and the parser is at a
place of a stream of `T`. One pass over all
parsing functions (`Pass*.lean`) establishes this for every theory; the properties C08, C13-C15,
C18, C20, C21 and C36 are instances.
-/
namespace Conch
open Spec

/-- Invariants that are carried through a parse. `J` is about the token stream, `K` about the
builder's state, `KE` about the state after a builder error, `KP` after a builder panic; `HS` is
implied by reaching a here-document, `LB` by calling `brace_group` before blanks, `FN` by reading the word
`function`. -/
structure Theory (B : Builder) where
  J : AIter → Prop
  K : B.State → Prop
  KE : B.Error → B.State → Prop
  KP : B.State → Prop
  HS : Prop
  LB : Prop
  FN : Prop
  next : ∀ {x r e}, J ⟨x :: r, e⟩ → J ⟨r, e⟩
  sub : ∀ {p q xs ys e sub}, J ⟨(p, .Backtick) :: (xs ++ (q, .Backtick) :: ys), e⟩ →
    Body .Backtick xs →
    tokenIterFromBackticked (⟨xs ++ (q, .Backtick) :: ys, e⟩ : AIter) p = (.ok sub, ⟨ys, e⟩) →
    J sub
  seen : ∀ {p t r e}, J ⟨(p, t) :: r, e⟩ → HeredocOp t → HS
  here : ∀ {p t r e it body}, J ⟨(p, t) :: r, e⟩ → HeredocOp t → Here t ⟨r, e⟩ it body → J it ∧ J body
  fn : ∀ {p t r e}, J ⟨(p, t) :: r, e⟩ → FunctionWord t → FN
  call : ∀ {c b}, K b → CallOk c → (FN ∨ SubshellOk c) →
    match B.call c b with
    | (.ok _, b') => K b'
    | (.err e, b') => KE e b'
    | (.panic, b') => KP b'

/-- Number of tokens left. -/
def PSt.len {B : Builder} (s : PSt AIter B) : Nat := s.it.rest.length

namespace Theory
variable {B : Builder} (T : Theory B)

structure Inv (s : PSt AIter B) : Prop where
  j : T.J s.it
  k : T.K s.b

/-- What holds between the states before and after a successful computation. -/
structure Fr (s s' : PSt AIter B) : Prop where
  j : T.J s'.it
  k : T.K s'.b
  endPos : s'.it.endPos = s.it.endPos
  len : s'.len ≤ s.len
  suf : T.HS ∨ s'.it.rest <:+ s.it.rest

/-- What holds between the states before and after a computation that failed. -/
structure After (s s' : PSt AIter B) : Prop where
  j : T.J s'.it
  suf : T.HS ∨ (s'.it.endPos = s.it.endPos ∧ s'.it.rest <:+ s.it.rest)

variable {T}

theorem After.trans {s s' s'' : PSt AIter B} (h : T.Fr s s') (h' : T.After s' s'') : T.After s s'' :=
  ⟨h'.j, by
    rcases h.suf with h1 | h1
    · exact .inl h1
    · exact h'.suf.imp_right fun h2 => ⟨h2.1.trans h.endPos, h2.2.trans h1⟩⟩

theorem Inv.after {s : PSt AIter B} (h : T.Inv s) : T.After s s :=
  ⟨h.j, .inr ⟨rfl, List.suffix_refl _⟩⟩

theorem Fr.after {s s' : PSt AIter B} (h : T.Fr s s') : T.After s s' :=
  ⟨h.j, h.suf.imp_right fun h1 => ⟨h.endPos, h1⟩⟩

theorem Fr.inv {s s' : PSt AIter B} (h : T.Fr s s') : T.Inv s' := ⟨h.j, h.k⟩

theorem Fr.trans {s s' s'' : PSt AIter B} (h : T.Fr s s') (h' : T.Fr s' s'') : T.Fr s s'' :=
  ⟨h'.j, h'.k, h'.endPos.trans h.endPos, Nat.le_trans h'.len h.len, by
    rcases h.suf with h | h
    · exact .inl h
    · exact h'.suf.imp_right fun h' => h'.trans h⟩

theorem Inv.refl {s : PSt AIter B} (h : T.Inv s) : T.Fr s s :=
  ⟨h.j, h.k, rfl, Nat.le_refl _, .inr (List.suffix_refl _)⟩

variable (T)

/-- The token `t` is at the position `p` of a stream. -/
def At (t : Token) (p : SourcePos) : Prop := ∃ r e, T.J ⟨(p, t) :: r, e⟩

/-- The token `t` is at the position `p` of a stream, or after blanks that start there. -/
def AtB (t : Token) (p : SourcePos) : Prop :=
  ∃ it bs q r, T.J it ∧ it.pos = p ∧ it.rest = bs ++ (q, t) :: r ∧ Blanks bs

/-- The position of a stream. -/
def PosAt (p : SourcePos) : Prop := ∃ it, T.J it ∧ it.pos = p

/-- The two positions are positions of streams; without here-documents in one stream, the second one
after at least one token. -/
def Range (p q : SourcePos) : Prop :=
  T.PosAt p ∧ T.PosAt q ∧ (T.HS ∨ ∃ l l' e, T.J ⟨l, e⟩ ∧ AIter.pos ⟨l, e⟩ = p ∧ AIter.pos ⟨l', e⟩ = q ∧ l' <:+ l ∧
    l'.length < l.length)

/-- In a stream, at `p` the command `c` starts. -/
def StartsAt (c : Str) (p : SourcePos) : Prop :=
  ∃ l e r, T.J ⟨l, e⟩ ∧ AIter.pos ⟨l, e⟩ = p ∧ KeywordAt (startWords c) l r

/-- In a stream, at `q`, there is not the keyword `k`. -/
def NotAt (k : Str) (q : SourcePos) : Prop :=
  ∃ l e, T.J ⟨l, e⟩ ∧ AIter.pos ⟨l, e⟩ = q ∧ NoBlank l ∧ ¬ WordAt l k

/-- At `p` the command `c` starts; at `q` there is not the keyword `k`. Without here-documents both
are in one stream, the second one after the first word of the command. -/
def Lacks (c : Str) (p : SourcePos) (k : Str) (q : SourcePos) : Prop :=
  (c, k) ∈ lackable ∧ T.StartsAt c p ∧ T.NotAt k q ∧ (T.HS ∨ ∃ l l' e, T.J ⟨l, e⟩ ∧ AIter.pos ⟨l, e⟩ = p ∧
    AIter.pos ⟨l', e⟩ = q ∧ (∃ r, KeywordAt (startWords c) l r ∧ l' <:+ r) ∧ NoBlank l' ∧
    ¬ WordAt l' k)

/-- An allowed error: the builder's, or one about what is in the stream. -/
def Err (e : ParseError B.Error) (b : B.State) : Prop :=
  match e with
  | .Custom x => T.KE x b
  | .UnexpectedEOF => T.K b
  | .Unexpected t p => T.K b ∧ T.At t p
  | .BadSubst t p => T.K b ∧ T.At t p
  | .BadIdent s p => T.K b ∧ T.At (.Literal s) p
  | .Unmatched t p => T.K b ∧ t ∈ openers ∧ (T.At t p ∨ T.LB ∧ T.AtB t p)
  | .BadFd p q => T.K b ∧ T.Range p q
  | .IncompleteCmd c p k q => T.K b ∧ T.Lacks c p k q

/-- The command `c` started at `p`, the state `s` is after its first word. -/
def Began (c : Str) (p : SourcePos) (s : PSt AIter B) : Prop :=
  T.StartsAt c p ∧ (T.HS ∨ ∃ l, T.J ⟨l, s.it.endPos⟩ ∧ AIter.pos ⟨l, s.it.endPos⟩ = p ∧
    ∃ r, KeywordAt (startWords c) l r ∧ s.it.rest <:+ r)

/-- An allowed panic: in the builder, or the one reachable in a here-document, when the last token of
a stream is a backslash. -/
def Pan (n : Nat) (b : B.State) : Prop :=
  (n = 0 ∧ T.KP b) ∨ (n = 1326 ∧ T.HS ∧ (∃ q e, T.J ⟨[(q, .Backslash)], e⟩) ∧ T.K b)

/-- See the module's documentation. -/
def Tr {α : Type} (m : P AIter B α) (s : PSt AIter B) (Q : α → PSt AIter B → Prop) : Prop :=
  match m s with
  | (.ok a, s') => T.Fr s s' ∧ Q a s'
  | (.err e, s') => T.Err e s'.b ∧ T.After s s'
  | (.panic n, s') => T.Pan n s'.b
  | (.fuel, _) => False

end Theory

section
variable {B : Builder} {T : Theory B} {α β σ : Type} {s : PSt AIter B}

theorem Theory.At.b {t : Token} {p : SourcePos} (h : T.At t p) (ho : t ∈ openers := by simp [openers]) :
    t ∈ openers ∧ (T.At t p ∨ T.LB ∧ T.AtB t p) := ⟨ho, .inl h⟩

theorem Theory.Inv.at {t : Token} (hi : T.Inv s) (h : s.it.peek = some t) : T.At t s.it.pos := by
  obtain ⟨⟨l, e⟩, b⟩ := s
  cases l with
  | nil => simp [AIter.peek] at h
  | cons x r =>
    simp [AIter.peek] at h
    subst h
    exact ⟨r, e, hi.j⟩

theorem Theory.Fr.range {s' : PSt AIter B} (f : T.Fr s s') (hi : T.Inv s) (h : s'.len < s.len) :
    T.Range s.it.pos s'.it.pos := by
  refine ⟨⟨_, hi.j, rfl⟩, ⟨_, f.j, rfl⟩, ?_⟩
  rcases f.suf with h' | h'
  · exact .inl h'
  · refine .inr ⟨s.it.rest, s'.it.rest, s.it.endPos, hi.j, rfl, ?_, h', h⟩
    rw [← f.endPos]

theorem Theory.Began.fr {s' : PSt AIter B} {c : Str} {p : SourcePos} (h : T.Began c p s)
    (f : T.Fr s s') : T.Began c p s' := by
  refine ⟨h.1, ?_⟩
  rcases h.2 with h | ⟨l, h1, h2, r, h3, h4⟩
  · exact .inl h
  rcases f.suf with h' | h'
  · exact .inl h'
  refine .inr ⟨l, ?_, ?_, r, h3, h'.trans h4⟩ <;> rwa [f.endPos]

theorem Theory.Began.lacks {c k : Str} {p : SourcePos} (h : T.Began c p s) (hi : T.Inv s) (hk : (c, k) ∈ lackable)
    (hn : NoBlank s.it.rest) (hw : ¬ WordAt s.it.rest k) : T.Lacks c p k s.it.pos := by
  refine ⟨hk, h.1, ⟨s.it.rest, s.it.endPos, hi.j, rfl, hn, hw⟩, ?_⟩
  rcases h.2 with h | ⟨l, h1, h2, h3⟩
  · exact .inl h
  · exact .inr ⟨l, s.it.rest, s.it.endPos, h1, h2, rfl, h3, hn, hw⟩

theorem tr_bind {m : P AIter B α} {f : α → P AIter B β} {Q1 : α → PSt AIter B → Prop}
    {Q : β → PSt AIter B → Prop} (h : T.Tr m s Q1)
    (h' : ∀ a s', T.Fr s s' → Q1 a s' → T.Tr (f a) s' Q) : T.Tr (m >>= f) s Q := by
  show T.Tr (P.bind m f) s Q
  unfold Theory.Tr P.bind at *
  generalize m s = z at h
  obtain ⟨r, s1⟩ := z
  cases r with
  | ok a =>
    have h2 := h' a s1 h.1 h.2
    simp only
    generalize f a s1 = z at h2 ⊢
    obtain ⟨r, s2⟩ := z
    cases r with
    | ok b => exact ⟨h.1.trans h2.1, h2.2⟩
    | err e => exact ⟨h2.1, .trans h.1 h2.2⟩
    | panic n => exact h2
    | fuel => exact h2
  | err e => exact h
  | panic n => exact h
  | fuel => exact h

theorem Theory.Tr.mono {m : P AIter B α} {Q1 Q : α → PSt AIter B → Prop} (h : T.Tr m s Q1)
    (h' : ∀ a s', T.Fr s s' → Q1 a s' → Q a s') : T.Tr m s Q := by
  unfold Theory.Tr at *
  generalize m s = z at h
  obtain ⟨r, s1⟩ := z
  cases r with
  | ok a => exact ⟨h.1, h' a s1 h.1 h.2⟩
  | err e => exact h
  | panic n => exact h
  | fuel => exact h

theorem tr_pure {a : α} {Q : α → PSt AIter B → Prop} (hi : T.Inv s) (h : Q a s) :
    T.Tr (pure a) s Q := ⟨hi.refl, h⟩

theorem tr_peek {f : Option Token → P AIter B β} {Q : β → PSt AIter B → Prop} :
    T.Tr (peek >>= f) s Q = T.Tr (f s.it.peek) s Q := rfl

theorem tr_getPos {f : SourcePos → P AIter B β} {Q : β → PSt AIter B → Prop} :
    T.Tr (getPos >>= f) s Q = T.Tr (f s.it.pos) s Q := rfl

theorem tr_pure_bind {a : α} {f : α → P AIter B β} {Q : β → PSt AIter B → Prop} :
    T.Tr (pure a >>= f) s Q = T.Tr (f a) s Q := rfl

theorem tr_lookahead {g : TokStream.MP AIter → α × TokStream.MP AIter} {f : α → P AIter B β}
    {Q : β → PSt AIter B → Prop} (h : (g ⟨s.it, s.it.toks⟩).2.it = s.it) :
    T.Tr (lookahead g >>= f) s Q = T.Tr (f (g ⟨s.it, s.it.toks⟩).1) s Q := by
  have : (lookahead g >>= f) s = f (g ⟨s.it, s.it.toks⟩).1 s := by
    show P.bind (lookahead g) f s = _
    unfold P.bind lookahead
    show f (g ⟨s.it, s.it.toks⟩).1 { s with it := (g ⟨s.it, s.it.toks⟩).2.it } = _
    rw [h]
  unfold Theory.Tr
  rw [this]

theorem peek_none {it : AIter} : it.peek = none ↔ it.rest = [] := by
  cases h : it.rest <;> simp [AIter.peek, h]

theorem peek_some_len {t : Token} (h : s.it.peek = some t) : 0 < s.len := by
  unfold PSt.len
  cases h' : s.it.rest with
  | nil => simp [AIter.peek, h'] at h
  | cons _ _ => simp

theorem tr_next (hi : T.Inv s) :
    T.Tr next s (fun a s' => a = s.it.peek ∧ (a ≠ none → s'.len < s.len)) := by
  obtain ⟨⟨l, e⟩, b⟩ := s
  cases l with
  | nil => exact ⟨hi.refl, rfl, fun h => absurd rfl h⟩
  | cons x r =>
    refine ⟨⟨T.next hi.j, hi.k, rfl, ?_, .inr ?_⟩, rfl, fun _ => ?_⟩
    · simp [PSt.len]
    · exact List.suffix_cons _ _
    · simp [PSt.len]

theorem tr_next' (hi : T.Inv s) :
    T.Tr next s (fun a s' => (a = s.it.peek ∧ (a ≠ none → s'.len < s.len)) ∧
      s'.it.rest = s.it.rest.tail) := by
  obtain ⟨⟨l, e⟩, b⟩ := s
  cases l with
  | nil => exact ⟨(tr_next hi).1, (tr_next hi).2, rfl⟩
  | cons x r => exact ⟨(tr_next hi).1, (tr_next hi).2, rfl⟩

theorem tr_fail {e : ParseError B.Error} {Q : α → PSt AIter B → Prop} (h : T.Err e s.b)
    (hi : T.Inv s := by first | assumption | exact Theory.Fr.inv (by assumption)) :
    T.Tr (fail e) s Q := ⟨h, hi.after⟩

theorem tr_unexpected (hi : T.Inv s) {Q : α → PSt AIter B → Prop} :
    T.Tr (unexpected : P AIter B α) s Q := by
  unfold unexpected
  rw [tr_getPos]
  refine tr_bind (tr_next hi) ?_
  rintro a s' f ⟨h, -⟩
  cases a with
  | none => exact tr_fail (e := .UnexpectedEOF) f.k
  | some t => exact tr_fail (e := .Unexpected t s.it.pos) ⟨f.k, hi.at h.symm⟩

theorem tr_eatMaybe (hi : T.Inv s) (t : Token) :
    T.Tr (eatMaybe t) s (fun a s' => (a = true → s.it.peek = some t ∧ s'.len < s.len) ∧
      (a = false → s' = s ∧ s.it.peek ≠ some t)) := by
  unfold eatMaybe
  rw [tr_peek]
  split
  · rename_i h
    refine tr_bind (tr_next hi) ?_
    rintro a s' f ⟨rfl, h2⟩
    exact tr_pure f.inv ⟨fun _ => ⟨h, h2 (by simp [h])⟩, by simp⟩
  · rename_i h
    exact tr_pure hi ⟨by simp, fun _ => ⟨rfl, h⟩⟩

theorem tr_eat (hi : T.Inv s) (t : Token) :
    T.Tr (eat t) s (fun _ s' => s'.len < s.len ∧ s.it.peek = some t) := by
  unfold eat
  refine tr_bind (tr_eatMaybe hi t) ?_
  rintro a s' f ⟨h1, h2⟩
  cases a with
  | false => exact tr_unexpected f.inv
  | true => exact tr_pure f.inv ⟨(h1 rfl).2, (h1 rfl).1⟩

theorem tr_call (hi : T.Inv s) {c : Call B.toBTypes} (hc : CallOk c)
    (hs : T.FN ∨ SubshellOk c := by exact .inr trivial) :
    T.Tr (call c) s (fun _ s' => s'.it = s.it) := by
  have h := T.call hi.k hc hs
  unfold Theory.Tr call
  generalize B.call c s.b = z at h ⊢
  obtain ⟨r, b⟩ := z
  cases r with
  | ok a => exact ⟨⟨hi.j, h, rfl, Nat.le_refl _, .inr (List.suffix_refl _)⟩, rfl⟩
  | err e => exact ⟨h, hi.j, .inr ⟨rfl, List.suffix_refl _⟩⟩
  | panic => exact .inl ⟨rfl, h⟩

/-- After one iteration of a loop: the invariant and progress, or the postcondition. -/
def LoopQ (I : σ → PSt AIter B → Prop) (Q : α → PSt AIter B → Prop) (s' : PSt AIter B) :
    Step σ α → PSt AIter B → Prop
  | .cont y, s'' => I y s'' ∧ s''.len < s'.len
  | .done a, s'' => Q a s''

/-- The loop rule: an invariant, and progress in every iteration that continues. -/
theorem tr_loopN {body : σ → P AIter B (Step σ α)} {Q : α → PSt AIter B → Prop}
    (I : σ → PSt AIter B → Prop) (s0 : PSt AIter B)
    (hb : ∀ x s', T.Fr s0 s' → I x s' → T.Tr (body x) s' (LoopQ I Q s')) (n : Nat) :
    ∀ x s, T.Fr s0 s → I x s → s.len < n → T.Tr (loopN body n x) s Q := by
  induction n with
  | zero => intro x s _ _ h; omega
  | succ n ih =>
    intro x s hf h hn
    refine tr_bind (hb x s hf h) ?_
    rintro (y | a) s' f hr
    · exact ih y s' (hf.trans f) hr.1 (by have := hr.2; omega)
    · exact tr_pure f.inv hr

theorem tr_loop (hi : T.Inv s) {body : σ → P AIter B (Step σ α)} {x : σ}
    {Q : α → PSt AIter B → Prop} (I : σ → PSt AIter B → Prop) (h : I x s)
    (hb : ∀ x s', T.Fr s s' → I x s' → T.Tr (body x) s' (LoopQ I Q s')) : T.Tr (loop body x) s Q := by
  have := tr_loopN I s hb (s.len + 2) x s hi.refl h (by omega)
  exact this

theorem tr_of_eq {m : P AIter B α} {Q : α → PSt AIter B → Prop} {a : α} {s' : PSt AIter B}
    (h : m s = (.ok a, s')) (hf : T.Fr s s') (hq : Q a s') : T.Tr m s Q := by
  unfold Theory.Tr; rw [h]; exact ⟨hf, hq⟩

/-- Two computations with the same result. -/
theorem tr_congr {m m' : P AIter B α} {s' : PSt AIter B} {Q : α → PSt AIter B → Prop}
    (hf : T.Fr s s') (h : m s = m' s') (ht : T.Tr m' s' Q) : T.Tr m s Q := by
  unfold Theory.Tr at *
  rw [h]
  generalize m' s' = z at ht
  obtain ⟨r, s1⟩ := z
  cases r with
  | ok a => exact ⟨hf.trans ht.1, ht.2⟩
  | err e => exact ⟨ht.1, .trans hf ht.2⟩
  | panic n => exact ht
  | fuel => exact ht

attribute [irreducible] Theory.Tr

end
end Conch
