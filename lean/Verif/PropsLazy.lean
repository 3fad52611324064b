import Verif.LazyCmd
import Verif.LexStream
/-!
# C45: the parser reads no further than the line it needs

When `complete_command` returns a command, nothing after the next newline has been taken from the
iterator of tokens; and if the command ended with its newline, nothing after it has.
-/
namespace Conch
namespace Lazy
open Gram (SepAfter NT)

variable {B : Builder} {α β σ : Type}

/-! ## From the list of tokens to the code's stream -/

theorem of_snd {α' : Type} {g : α → α'} {m : P CIter B α} {m' : P AIter B α'} {l : List Token} {b : B.State}
    {Q : α' → List Token → B.State → Prop}
    (h : Rel cSim (Hom.id B) g m m') (hs : Gram.Snd m' l b Q) {s s' : PSt CIter B} {a : α}
    (e : m s = (.ok a, s')) (hl : s.it.1.abs.toks = l) (hb : s.b = b) : Q (g a) s'.it.1.abs.toks s'.b := by
  unfold Rel at h
  have h := h s s.abs ⟨rfl, rfl⟩
  rw [e] at h
  subst hb
  generalize hz : m' s.abs = z at h
  obtain ⟨r, s2⟩ := z
  obtain ⟨x, rfl⟩ : ∃ x, r = .ok x := by
    cases r with
    | ok x => exact ⟨x, rfl⟩
    | _ => exact h.elim
  obtain ⟨h1, h2, h3⟩ := h
  have := hs s.it.1.abs.rest s.it.1.abs.endPos hl _ _ hz
  obtain rfl := h1
  have h2 : s2.it = s'.it.1.abs := h2.symm
  have h3 : s2.b = s'.b := h3.symm
  rw [h3] at this
  change Q _ s2.it.toks _ at this
  rwa [h2] at this

theorem bind_inv {m : P CIter B α} {f : α → P CIter B β} {s s' : PSt CIter B} {b : β}
    (e : (m >>= f) s = (.ok b, s')) : ∃ a s1, m s = (.ok a, s1) ∧ f a s1 = (.ok b, s') := by
  change P.bind m f s = _ at e
  unfold P.bind at e
  generalize m s = z at e
  obtain ⟨r, s1⟩ := z
  cases r with
  | ok a => exact ⟨a, s1, rfl, e⟩
  | _ => cases e

theorem here_fix (n : Nat) (fd : Option Nat) (s : PSt CIter B) (a : B.Redirect) (s' : PSt CIter B)
    (e : redirectHeredoc (Rec.fix n) fd s = (.ok a, s')) : ntoks s'.it < ntoks s.it ∧
      ∃ t, s.it.1.abs.toks.head? = some t ∧ (t = .DLess ∨ t = .DLessDash) := by
  have h := of_snd (rel_redirectHeredoc (recRel_fix n) fd) (Gram.snd_heredoc (Gram.sound_fix n) fd _ _) e rfl rfl
  refine ⟨h.len.2 trivial, ?_⟩
  generalize s.it.1.abs.toks = l at h
  generalize s'.it.1.abs.toks = r at h
  cases h with
  | heredocQuoted h => exact ⟨_, rfl, h⟩
  | heredoc h => exact ⟨_, rfl, h⟩

theorem recLz_fix {q : List Token} (n : Nat) : RecLz q (Rec.fix n : Rec CIter B) := by
  induction n with
  | zero => exact ⟨fun _ _ => lz_outOfFuel, lz_outOfFuel, fun fd s a s' => here_fix 0 fd s a s'⟩
  | succ n ih =>
    exact ⟨fun d h => lz_commandGroupInternal ih h, lz_parameterRaw ih, fun fd s a s' => here_fix (n + 1) fd s a s'⟩

theorem Lz.use {q : List Token} {p : Prop} {m : P CIter B α} {Q : α → Prop} (h : Lz q p m Q) {s s' : PSt CIter B} {a : α}
    (e : m s = (.ok a, s')) : ntoks s'.it ≤ ntoks s.it ∧
    (q.length ≤ ntoks s'.it → Good q s.it → (p → Strict s.it.1.buffered) →
      Good q s'.it ∧ (Q a → Strict s'.it.1.buffered)) := by
  unfold Lz at h
  exact h s a s' e

/-! ## The newline that ends a command -/

theorem next_head (it : CIter) : (TokStream.next it).1 = (it.1.buffered ++ it.1.iter).head? := by
  rw [← toks_buffered, show (TokStream.next it).1 = it.1.abs.next.1 from (CIter.next_eq it).1]
  unfold AIter.next AIter.toks
  split <;> simp_all

/-- Taking a newline, or the end of input, from a strict buffer empties it. -/
theorem next_empty {it : CIter} (h : Strict it.1.buffered)
    (ht : (TokStream.next it).1 = some .Newline ∨ (TokStream.next it).1 = none) :
    (TokStream.next it).2.1.buffered = [] := by
  rw [next_head] at ht
  rw [(next_buffered it).1]
  match hb : it.1.buffered with
  | [] => rfl
  | [t] => rfl
  | t :: u :: x =>
    rw [hb] at h ht
    simp at ht
    subst ht
    simp [Strict] at h

theorem next_strict {it : CIter} (h : Strict it.1.buffered) : Strict (TokStream.next it).2.1.buffered := by
  rw [(next_buffered it).1]; exact h.tail

theorem comment_empty (n : Nat) (acc ts : List Token) (s s' : PSt CIter B)
    (e : loopN takeCommentBody n acc s = (.ok ts, s')) (h : Strict s.it.1.buffered) : s'.it.1.buffered = [] := by
  induction n generalizing acc s with
  | zero => cases e
  | succ n ih =>
    obtain ⟨r, s1, e1, e2⟩ := bind_inv e
    obtain ⟨t, s2, e3, e4⟩ := bind_inv (show (next >>= fun t => match t with
      | some .Newline => pure (.done acc) | some t => pure (.cont (acc ++ [t])) | none => pure (.done acc) :
        P CIter B (Step (List Token) (List Token))) s = _ from e1)
    have h3 : t = (TokStream.next s.it).1 ∧ s2.it = (TokStream.next s.it).2 := by cases e3; exact ⟨rfl, rfl⟩
    have done : s2.it.1.buffered = [] → s1 = s2 → (∃ a, r = .done a) → s'.it.1.buffered = [] := by
      rintro h rfl ⟨a, rfl⟩
      cases e2; exact h
    split at e4
    · cases e4
      exact done (by rw [h3.2]; exact next_empty h (.inl h3.1.symm)) rfl ⟨_, rfl⟩
    · cases e4
      exact ih _ _ e2 (by rw [h3.2]; exact next_strict h)
    · cases e4
      exact done (by rw [h3.2]; exact next_empty h (.inr h3.1.symm)) rfl ⟨_, rfl⟩

theorem newline_empty {q : List Token} {n : Nl} {s s' : PSt CIter B} (e : newline s = (.ok (some n), s'))
    (hq : q.length ≤ ntoks s'.it) (hg : Good q s.it) (h : Strict s.it.1.buffered) : s'.it.1.buffered = [] := by
  have hlz := lz_newline (q := q) (B := B) (p := True)
  unfold newline at e hlz
  obtain ⟨u, s1, e1, e⟩ := bind_inv e
  obtain ⟨t, s2, e2, e⟩ := bind_inv e
  have k1 := (lz_skipWhitespace (q := q) (p := True)).use e1
  have k2 := (lz_peek (q := q) (p := True)).use e2
  have k3 : ntoks s'.it ≤ ntoks s2.it := by
    split at e
    · obtain ⟨c, s3, e3, e4⟩ := bind_inv e
      have := ((lz_takeComment (q := q) trivial).use e3).1
      cases e4; exact this
    · obtain ⟨c, s3, e3, e4⟩ := bind_inv e
      have := ((lz_next (q := q) (p := True)).use e3).1
      cases e4; exact this
    · cases e
  obtain ⟨g1, h1⟩ := k1.2 (by omega) hg fun _ => h
  obtain ⟨g2, h2⟩ := k2.2 (by omega) g1 fun _ => h1 trivial
  replace h2 := h2 (.inl trivial)
  have h3 : t = (TokStream.next s2.it).1 := by
    have : t = (TokStream.peek s1.it).1 ∧ s2.it = (TokStream.peek s1.it).2 := by cases e2; exact ⟨rfl, rfl⟩
    rw [next_head, ← toks_buffered, this.2, peek_toks, this.1,
      show (TokStream.peek s1.it).1 = _ from (CIter.peek_eq s1.it).1]
    simp [AIter.peek, AIter.toks]
  clear k3 k2 k1 e2
  split at e
  · obtain ⟨c, s3, e3, e4⟩ := bind_inv e
    cases e4
    exact comment_empty _ _ _ _ _ e3 h2
  · obtain ⟨c, s3, e3, e4⟩ := bind_inv e
    cases e4
    cases e3
    exact next_empty h2 (.inl h3.symm)
  · cases e

theorem eatMaybe_mono {t : Token} {r : Bool} {q : List Token} {s s' : PSt CIter B}
    (e : eatMaybe t s = (.ok r, s')) : ntoks s'.it ≤ ntoks s.it ∧ (q.length ≤ ntoks s'.it → Good q s.it →
      Strict s.it.1.buffered → Good q s'.it ∧ Strict s'.it.1.buffered) := by
  have h : Lz q True (eatMaybe t : P CIter B Bool) (fun _ => True) := by
    unfold eatMaybe
    lz
  have := h.use e
  exact ⟨this.1, fun h1 h2 h3 => ⟨(this.2 h1 h2 fun _ => h3).1, (this.2 h1 h2 fun _ => h3).2 trivial⟩⟩

/-- A separator that includes a newline leaves nothing in a strict buffer. -/
theorem separator_empty {q : List Token} {k : SeparatorKind} {n : Nl} {s s' : PSt CIter B}
    (e : separator s = (.ok (k, some n), s')) (hq : q.length ≤ ntoks s'.it) (hg : Good q s.it)
    (h : Strict s.it.1.buffered) : s'.it.1.buffered = [] := by
  have nl : ∀ {r : Option Nl} {s s' : PSt CIter B}, newline s = (.ok r, s') → ntoks s'.it ≤ ntoks s.it :=
    fun e => ((lz_newline (q := q) (p := True)).use e).1
  unfold separator at e
  obtain ⟨x, s1, e1, e⟩ := bind_inv e
  have k1 := eatMaybe_mono (q := q) e1
  split at e
  · obtain ⟨c, s2, e2, e⟩ := bind_inv e
    cases e
    obtain ⟨g, h⟩ := k1.2 (Nat.le_trans hq (nl e2)) hg h
    exact newline_empty e2 hq g h
  obtain ⟨y, s2, e2, e⟩ := bind_inv e
  have k2 := eatMaybe_mono (q := q) e2
  split at e
  · obtain ⟨c, s3, e3, e⟩ := bind_inv e
    cases e
    obtain ⟨g, h⟩ := k1.2 (Nat.le_trans hq (Nat.le_trans (nl e3) k2.1)) hg h
    obtain ⟨g, h⟩ := k2.2 (Nat.le_trans hq (nl e3)) g h
    exact newline_empty e3 hq g h
  obtain ⟨c, s3, e3, e⟩ := bind_inv e
  have e4 : c = some n ∧ s' = s3 := by
    cases c <;> cases e
    exact ⟨rfl, rfl⟩
  obtain ⟨rfl, rfl⟩ := e4
  obtain ⟨g, h⟩ := k1.2 (Nat.le_trans hq (Nat.le_trans (nl e3) k2.1)) hg h
  obtain ⟨g, h⟩ := k2.2 (Nat.le_trans hq (nl e3)) g h
  exact newline_empty e3 hq g h

theorem call_it {c : Call B.toBTypes} {a : c.Ret} {s s' : PSt CIter B} (e : call c s = (.ok a, s')) : s'.it = s.it := by
  unfold call at e
  split at e <;> cases e
  rfl

/-- A command that ends with its newline leaves nothing buffered. -/
theorem complete_empty {t1 : List Token} {n : Nat} {c : B.Command} {s s' : PSt CIter B}
    (e : completeCommand (Rec.fix n) s = (.ok (some c), s')) (hx : Gram.Ahead none t1 s.it.1.abs.toks)
    (hr : s'.it.1.abs.toks = t1) (hw : Weak s.it.1.buffered) : s'.it.1.buffered = [] := by
  unfold completeCommand at e
  obtain ⟨pre, s1, e1, e⟩ := bind_inv e
  obtain ⟨t, s2, e2, e⟩ := bind_inv e
  split at e
  rotate_left
  · split at e
    · cases e
    · obtain ⟨_, s3, e3, e⟩ := bind_inv e
      cases e
  obtain ⟨c', s3, e3, e⟩ := bind_inv e
  obtain ⟨rfl, rfl⟩ : c' = c ∧ s' = s3 := by cases e; exact ⟨rfl, rfl⟩
  unfold completeCommandWithComments at e3
  obtain ⟨ao, s4, e4, e3⟩ := bind_inv e3
  obtain ⟨⟨k, cm⟩, s5, e5, e3⟩ := bind_inv e3
  have h6 : s'.it = s5.it := call_it e3
  have hlines : Gram.Lines s.it.1.abs.toks pre s1.it.1.abs.toks := by
    obtain ⟨ns, r, hl⟩ := Gram.lines_total s.it.1.abs.toks
    have := of_snd (Q := fun x r _ => Gram.Lines s.it.1.abs.toks x r) rel_linebreak
      (Gram.Snd.ofRun (Gram.Run.linebreak hl) hl) e1 rfl rfl
    exact this
  have h2 : s2.it.1.abs = s1.it.1.abs := by cases e2; exact peek_toks _
  have hao := of_snd (rel_andOrList (recRel_fix n)) (Gram.snd_andOr (Gram.sound_fix n) _ _) e4 rfl rfl
  have hsep : Gram.SepAfter s4.it.1.abs.toks k cm s5.it.1.abs.toks := by
    obtain ⟨k', c', r, hl⟩ := Gram.sepAfter_total s4.it.1.abs.toks
    have := of_snd (Q := fun x r _ => Gram.SepAfter s4.it.1.abs.toks x.1 x.2 r) rel_separator
      (Gram.Snd.ofRun (Gram.separator_run hl) hl) e5 rfl rfl
    exact this
  have hle := hsep.le
  have hlt := hao.len.2 trivial
  have hr5 : s5.it.1.abs.toks = t1 := by rw [← h6]; exact hr
  rw [hr5] at hle
  -- the newline is ahead before and after the and-or list
  have a1 : Gram.Ahead none t1 s2.it.1.abs.toks := by
    rw [h2]
    rcases (Gram.Weak.lines ⟨Gram.probe_none, .inl hx⟩ hlines).or with h | h
    · exact h
    · rw [h2] at hlt; rw [Gram.live_none] at h; omega
  have a4 : Gram.Ahead none t1 s4.it.1.abs.toks := by
    rcases (hao.strict trivial ⟨Gram.probe_none, .inl a1⟩).or with h | h
    · exact h
    · rw [Gram.live_none] at h; omega
  have len : ∀ {i : CIter}, t1.length ≤ i.1.abs.toks.length → t1.length ≤ ntoks i := id
  have g : Good t1 s.it := by
    obtain ⟨x, hx, h, -⟩ := hx
    refine ⟨⟨x ++ [.Newline], by simpa using h, fun t ht => ?_⟩, hw⟩
    rcases List.mem_append.1 ht with ht | ht
    · exact hx.noHere rfl t ht
    · simp at ht; subst ht; simp
  have k1 := (lz_linebreak (q := t1) (p := False)).use e1
  have k2 := (lz_peek (q := t1) (p := False)).use e2
  have k4 := (lz_andOrList (q := t1) (p := False) (recLz_fix n)).use e4
  have q4 : t1.length ≤ ntoks s4.it := hle
  have g1 := k1.2 (by omega) g False.elim
  have g2 := k2.2 (by omega) g1.1 False.elim
  have g4 := k4.2 q4 g2.1 False.elim
  rw [h6]
  cases cm with
  | some nl => exact separator_empty e5 (len (by rw [hr5])) g4.1 (g4.2 trivial)
  | none =>
    exfalso
    rw [hr5] at hsep
    generalize s4.it.1.abs.toks = l at a4 hsep
    cases hsep with
    | semi h =>
      obtain ⟨l1, _, h3⟩ := Gram.Ends.cons_ne a4 (by simp)
      cases h with | none h _ => exact h3.not_skip h rfl
    | amp h =>
      obtain ⟨l1, _, h3⟩ := Gram.Ends.cons_ne a4 (by simp)
      cases h with | none h _ => exact h3.not_skip h rfl
    | other h _ _ => exact Gram.Ends.not_skip a4 h rfl

theorem complete_strict {q : List Token} {n : Nat} {c : B.Command} {s s' : PSt CIter B}
    (e : completeCommand (Rec.fix n) s = (.ok (some c), s')) (hq : q.length ≤ ntoks s'.it) (hg : Good q s.it) :
    Strict s'.it.1.buffered := by
  have h : Lz q False (completeCommand (Rec.fix n) : P CIter B _) (fun r => r.isSome = true) := by
    have hR := recLz_fix (B := B) (q := q) n
    unfold completeCommand
    lz
  exact (h.use e).2 hq hg False.elim |>.2 rfl

end Lazy

/-! ## The claims -/

section
variable {B : Builder}
open Spec
open Gram (Parses)

/-- The tokens the parser has not taken from the iterator it was given. -/
def PSt.unread (s : PSt CIter B) : List Token := s.it.1.iter

/-- The tokens the parser has taken from that iterator to look at, and not consumed. -/
def PSt.held (s : PSt CIter B) : List Token := s.it.1.buffered

theorem PSt.tokens_held (s : PSt CIter B) : s.tokens = s.held ++ s.unread := Lazy.toks_buffered s.it

/-- A new parser has taken nothing. -/
theorem held_new (ts : List Token) (b : B.State) : (parserOn (B := B) ts b).held = [] := rfl

/-- Nothing after a newline is among these tokens. -/
def Spec.WithinLine (x : List Token) : Prop := ∀ y z, x = y ++ .Newline :: z → z = []

theorem withinLine_strict {x : List Token} : WithinLine x ↔ Lazy.Strict x := by
  unfold WithinLine Lazy.Strict
  constructor
  · intro h hm
    obtain ⟨y, z, hz⟩ := List.append_of_mem hm
    have hx : x ≠ [] := by rintro rfl; simp at hm
    have := List.dropLast_append_getLast hx
    rw [hz] at this
    have := h y (z ++ [x.getLast hx]) (by simpa using this.symm)
    simp at this
  · rintro h y z rfl
    match z, h with
    | [], _ => rfl
    | t :: z, h =>
      exfalso
      apply h
      rw [List.dropLast_append_of_ne_nil (by simp)]
      simp

/-- **C45.** When `complete_command` returns a command, the parser has taken nothing after the first
newline it has not consumed: it read no line that it did not need for the command. (The command may
not have consumed the operator of a here-document, and the same must hold before the call, as it
does for a new parser.) -/
theorem C45_within_line (s : PSt CIter B) (c : B.Command) (u r : List Token) (b' : B.State)
    (h : Parses .completeCommand s (some c) r b') (hu : s.tokens = u ++ r) (hn : Gram.NoHere u)
    (hs : WithinLine s.held) : WithinLine (Method.completeCommand.run s).2.held := by
  obtain ⟨h1, h2, -⟩ := h
  change (run completeCommand s).1 = _ at h1
  change (run completeCommand s).2.tokens = _ at h2
  change WithinLine (run completeCommand s).2.held
  rw [withinLine_strict] at *
  unfold run at h1 h2 ⊢
  generalize hz : completeCommand (Rec.fix _) s = z at h1 h2 ⊢
  obtain ⟨z, s'⟩ := z
  cases h1
  refine Lazy.complete_strict (q := r) hz ?_ ⟨⟨u, hu, hn⟩, hs.weak⟩
  rw [← h2]
  exact Nat.le_refl _

/-- **C45.** A command that ends with its line is returned before anything after the newline is
taken: what the iterator still has is exactly what follows the newline. -/
theorem C45_line_done (s : PSt CIter B) (x t : List Token) (hx : Gram.Plain none x)
    (hl : s.tokens = x ++ .Newline :: t) (hs : WithinLine s.held) (c : B.Command) (b' : B.State)
    (h : Parses .completeCommand s (some c) t b') :
    (Method.completeCommand.run s).2.held = [] ∧ (Method.completeCommand.run s).2.unread = t := by
  obtain ⟨h1, h2, -⟩ := h
  change (run completeCommand s).1 = _ at h1
  change (run completeCommand s).2.tokens = _ at h2
  change (run completeCommand s).2.held = _ ∧ (run completeCommand s).2.unread = _
  suffices (run completeCommand s).2.held = [] by
    rw [PSt.tokens_held, this] at h2
    exact ⟨this, h2⟩
  rw [withinLine_strict] at *
  unfold run at h1 h2 ⊢
  generalize hz : completeCommand (Rec.fix _) s = z at h1 h2 ⊢
  obtain ⟨z, s'⟩ := z
  cases h1
  exact Lazy.complete_empty hz ⟨x, hx, hl, hl⟩ h2 hs.weak

/-- Lines that are commands of their own: with the state `b` of the builder, reading each line (with
its newline, and nothing after it) yields one command and consumes the line. -/
inductive Spec.Session : B.State → List (List Token) → List B.Command → B.State → Prop
  | nil {b} : Session b [] [] b
  | cons {b x c b' xs cs b''} : Gram.Plain none x →
      Parses .completeCommand (parserOn (x ++ [.Newline]) b) (some c) [] b' → Session b' xs cs b'' →
      Session b (x :: xs) (c :: cs) b''

/-- The lines as the parser gets them. -/
def Spec.stream : List (List Token) → List Token
  | [] => []
  | x :: xs => x ++ .Newline :: stream xs

/-- **C45.** An interactive session: the parser is given one line after the other, each a command of
its own. Whatever comes later, it yields the command of each line before it takes anything of the next
line from the iterator. -/
theorem C45_session (xs : List (List Token)) (b b' : B.State) (cs : List B.Command) (later : List Token)
    (h : Session b xs cs b') :
    ∃ s', Yields ⟨some (parserOn (stream xs ++ later) b)⟩ (cs.map .ok) ⟨some s'⟩ ∧
      s'.held = [] ∧ s'.unread = later ∧ s'.b = b' := by
  suffices ∀ s : PSt CIter B, s.tokens = stream xs ++ later → s.b = b → s.held = [] →
      ∃ s', Yields ⟨some s⟩ (cs.map .ok) ⟨some s'⟩ ∧ s'.held = [] ∧ s'.unread = later ∧ s'.b = b' from
    this _ (parserOn_rest _ _) rfl (held_new _ _)
  induction h with
  | nil =>
    intro s h1 h2 h3
    refine ⟨s, .nil, h3, ?_, h2⟩
    rw [PSt.tokens_held, h3] at h1
    exact h1
  | @cons b x c b1 xs cs b2 hx hc _ ih =>
    intro s h1 h2 h3
    have hl : s.tokens = x ++ .Newline :: (stream xs ++ later) := by rw [h1]; simp [stream]
    have hp := C42_command_local _ s x [] (stream xs ++ later) hx (parserOn_rest _ _) hl h2.symm c b1 hc
    have hd := C45_line_done s x _ hx hl (by rw [h3]; intro y z h; simp at h) c b1 hp
    obtain ⟨s1, g1, g2, g3⟩ := next_some hp
    obtain rfl : s1 = (Method.completeCommand.run s).2 := by
      have e := hp.1
      change (run completeCommand s).1 = _ at e
      change s1 = (run completeCommand s).2
      unfold ParserIterator.next at g1
      simp only at g1
      generalize run completeCommand s = z at e g1
      obtain ⟨z, s2⟩ := z
      cases e
      cases g1
      rfl
    obtain ⟨s', k1, k2⟩ := ih _ g2 g3 hd.1
    exact ⟨s', .cons g1 k1, k2⟩

/-- Lines of text, each with its newline. -/
def Spec.typed : List Str → Str
  | [] => []
  | p :: ps => p ++ '\n' :: typed ps

theorem lex_typed {cc : CharClass} (hs : cc.Sane) (ps : List Str) (later : Str) :
    lex cc (typed ps ++ later) = stream (ps.map (lex cc)) ++ lex cc later := by
  induction ps with
  | nil => rfl
  | cons p ps ih =>
    have : typed (p :: ps) ++ later = p ++ '\n' :: (typed ps ++ later) := by simp [typed]
    rw [this, lex_line hs, ih]
    simp [stream]

theorem concat_stream {cc : CharClass} (hs : cc.Sane) (ps : List Str) :
    concatTokens (stream (ps.map (lex cc))) = typed ps := by
  have := C01_concat_tokens cc (typed ps ++ [])
  rw [lex_typed hs, concatTokens_append] at this
  simpa [C01_concat_tokens] using this

theorem stream_last {xs : List (List Token)} (h : xs ≠ []) : (stream xs).getLast? = some .Newline := by
  induction xs with
  | nil => exact absurd rfl h
  | cons x xs ih =>
    cases xs with
    | nil => simp [stream]
    | cons y ys =>
      have := ih (by simp)
      rw [stream, List.getLast?_append, List.getLast?_cons, this]
      rfl

/-- **C45.** The session with the lexer: the user types lines, each a command of its own. The parser
yields the commands of these lines when it has taken from the lexer the tokens of these lines and no
more, and the lexer has taken from its iterator the characters of these lines and no more. -/
theorem C45_session_chars (cc : CharClass) (hs : cc.Sane) (ps : List Str) (b b' : B.State) (cs : List B.Command)
    (later : Str) (h : Session b (ps.map (lex cc)) cs b') :
    ∃ s' taken, Yields ⟨some (parserOn (lex cc (typed ps ++ later)) b)⟩ (cs.map .ok) ⟨some s'⟩ ∧
      s'.held = [] ∧ lex cc (typed ps ++ later) = taken ++ s'.unread ∧
      (afterS cc (.new (typed ps ++ later)) taken.length).untaken = later := by
  obtain ⟨s', h1, h2, h3, -⟩ := C45_session _ b b' cs (lex cc later) h
  rw [← lex_typed hs] at h1
  refine ⟨s', stream (ps.map (lex cc)), h1, h2, by rw [h3, lex_typed hs], ?_⟩
  cases ps with
  | nil => rfl
  | cons p ps =>
    have hl := lex_typed hs (p :: ps) later
    have hlast := stream_last (xs := (p :: ps).map (lex cc)) (by simp)
    have hc := concat_stream hs (p :: ps)
    generalize stream ((p :: ps).map (lex cc)) = ts at *
    generalize typed (p :: ps) = txt at *
    obtain ⟨ts', rfl⟩ := List.getLast?_eq_some_iff.1 hlast
    have := C45_lexer_newline cc (txt ++ later) ts'.length (by rw [hl]; simp)
    rw [hl, List.take_left' (by simp), hc] at this
    rw [List.length_append]
    exact (List.append_cancel_left this).symm

/-! ## Examples -/

/-- Reading this text and a newline yields a command and consumes everything. -/
def isCommand (src : Str) : Bool :=
  let r := Method.completeCommand.run (parserOn (B := EmptyBuilder) (lex ascii src ++ [.Newline]) ())
  (match r.1 with | .ok (some _) => true | _ => false) && r.2.tokens.isEmpty

theorem isCommand_sound {src : Str} (h : isCommand src = true) :
    Parses .completeCommand (parserOn (B := EmptyBuilder) (lex ascii src ++ [.Newline]) ()) (some ()) [] () := by
  unfold isCommand at h
  unfold Parses
  generalize Method.completeCommand.run (parserOn (B := EmptyBuilder) (lex ascii src ++ [.Newline]) ()) = z at h ⊢
  obtain ⟨r, s'⟩ := z
  simp only [Bool.and_eq_true, List.isEmpty_iff] at h
  refine ⟨?_, h.2, rfl⟩
  match r, h.1 with
  | .ok (some ()), _ => rfl

/-- Two lines a user types, the second continued on two more lines. -/
def exampleLines : List Str := ["ls -l; # all".toList, "if a &&\n b; then\nc; fi".toList]

theorem exampleLines_session : Session (B := EmptyBuilder) () (exampleLines.map (lex ascii)) [(), ()] () := by
  have h1 : isCommand "ls -l; # all".toList = true := by decide +kernel
  have h2 : isCommand "if a &&\n b; then\nc; fi".toList = true := by decide +kernel
  exact .cons (lex_plain (by decide +kernel) (by decide +kernel)) (isCommand_sound h1)
    (.cons (lex_plain (by decide +kernel) (by decide +kernel)) (isCommand_sound h2) .nil)

example (later : Str) : ∃ s' taken,
    Yields ⟨some (parserOn (B := EmptyBuilder) (lex ascii (typed exampleLines ++ later)) ())⟩ [.ok (), .ok ()] ⟨some s'⟩ ∧
      s'.held = [] ∧ lex ascii (typed exampleLines ++ later) = taken ++ s'.unread ∧
      (afterS ascii (.new (typed exampleLines ++ later)) taken.length).untaken = later :=
  C45_session_chars (B := EmptyBuilder) ascii ascii_sane exampleLines () () [(), ()] later exampleLines_session

/-- A command that does not end with its line: of `a; b` the parser has looked at `b` when it returns
`a;`, and not at the newline. -/
example : (Method.completeCommand.run (parserOn (B := EmptyBuilder) (lex ascii "a; b\nc".toList) ())).2.held =
    [.Name ['b']] := by decide +kernel

/-- An error is another matter. Here the newline that follows `!` is the error, but the parser has looked at
the first token of the next line before it reports that: it looks for a reserved word, and always looks at
two tokens for that. -/
theorem C45_error_reads_next_line :
    (match (Method.completeCommand.run (parserOn (B := EmptyBuilder) (.Bang :: .Newline :: .Name ['a'] :: []) ())).1 with
      | .err (.Unexpected .Newline _) => true | _ => false) = true ∧
    (Method.completeCommand.run (parserOn (B := EmptyBuilder) (.Bang :: .Newline :: .Name ['a'] :: []) ())).2.unread = [] := by
  decide +kernel

end

end Conch
