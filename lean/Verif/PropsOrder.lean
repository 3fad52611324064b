import Verif.PropsPos
/-!
# Property C49: positions only move forward
-/
namespace Conch
open Spec

/-- The position `p` is not after `q`: neither its byte offset nor its line is greater. -/
def SourcePos.NotAfter (p q : SourcePos) : Prop := p.byte ≤ q.byte ∧ p.line ≤ q.line

/-- `Between a l b`: no token of `l` is before `a`, none starts before the previous one ends, and the last
one ends no later than `b`. -/
def Between (a : SourcePos) : List PTok → SourcePos → Prop
  | [], b => a.NotAfter b
  | x :: l, b => a.NotAfter x.1 ∧ Between (x.1.advance x.2) l b

theorem SourcePos.NotAfter.refl (p : SourcePos) : p.NotAfter p := ⟨Nat.le_refl _, Nat.le_refl _⟩

theorem SourcePos.NotAfter.trans {p q r : SourcePos} (h : p.NotAfter q) (h' : q.NotAfter r) : p.NotAfter r :=
  ⟨Nat.le_trans h.1 h'.1, Nat.le_trans h.2 h'.2⟩

theorem SourcePos.NotAfter.advance {p q : SourcePos} (h : p.NotAfter q) (t : Token) :
    (p.advance t).NotAfter (q.advance t) :=
  ⟨Nat.add_le_add_right h.1 _, Nat.add_le_add_right h.2 _⟩

theorem notAfter_advance (p : SourcePos) (t : Token) : p.NotAfter (p.advance t) :=
  ⟨Nat.le_add_right _ _, Nat.le_add_right _ _⟩

theorem notAfter_posAfter (p : SourcePos) (ts : List Token) : p.NotAfter (posAfter p ts) := by
  induction ts generalizing p with
  | nil => exact .refl p
  | cons t ts ih => exact (notAfter_advance p t).trans (ih _)

theorem SourcePos.NotAfter.posAfter {p q : SourcePos} (h : p.NotAfter q) (ts : List Token) :
    (posAfter p ts).NotAfter (posAfter q ts) := by
  induction ts generalizing p q with
  | nil => exact h
  | cons t ts ih => exact ih (h.advance t)

namespace Between

theorem le {a b : SourcePos} {l : List PTok} (h : Between a l b) : a.NotAfter b := by
  induction l generalizing a with
  | nil => exact h
  | cons x l ih => exact h.1.trans ((notAfter_advance _ _).trans (ih h.2))

theorem left {a a' b : SourcePos} {l : List PTok} (h : Between a l b) (ha : a'.NotAfter a) : Between a' l b := by
  cases l with
  | nil => exact ha.trans h
  | cons x l => exact ⟨ha.trans h.1, h.2⟩

theorem right {a b b' : SourcePos} {l : List PTok} (h : Between a l b) (hb : b.NotAfter b') : Between a l b' := by
  induction l generalizing a with
  | nil => exact h.trans hb
  | cons x l ih => exact ⟨h.1, ih h.2⟩

theorem append {a b c : SourcePos} {l l' : List PTok} (h : Between a l b) (h' : Between b l' c) :
    Between a (l ++ l') c := by
  induction l generalizing a with
  | nil => exact h'.left h
  | cons x l ih => exact ⟨h.1, ih h.2⟩

theorem split {a c : SourcePos} {l l' : List PTok} (h : Between a (l ++ l') c) :
    ∃ b, Between a l b ∧ Between b l' c := by
  induction l generalizing a with
  | nil => exact ⟨a, .refl a, h⟩
  | cons x l ih =>
    obtain ⟨b, h1, h2⟩ := ih h.2
    exact ⟨b, ⟨h.1, h1⟩, h2⟩

theorem annotated (p : SourcePos) (ts : List Token) : Between p (annotate p ts) (posAfter p ts) := by
  induction ts generalizing p with
  | nil => exact .refl p
  | cons t ts ih => exact ⟨.refl p, ih _⟩

/-- Tokens that are counted one after the other do not get further than they are. -/
theorem again {a b : SourcePos} {l : List PTok} (h : Between a l b) : (posAfter a (l.map (·.2))).NotAfter b := by
  induction l generalizing a with
  | nil => exact h
  | cons x l ih => exact ((h.1.advance x.2).posAfter _).trans (ih h.2)

theorem pos {a b e : SourcePos} {l : List PTok} (h : Between a l b) (ha : a.NotAfter e) :
    a.NotAfter (AIter.pos ⟨l, e⟩) := by
  cases l with
  | nil => exact ha
  | cons x l => exact h.1

theorem pos_le {a b e : SourcePos} {l : List PTok} (h : Between a l b) (hb : e.NotAfter b) :
    (AIter.pos ⟨l, e⟩).NotAfter b := by
  cases l with
  | nil => exact hb
  | cons x l => exact (notAfter_advance _ _).trans h.2.le

/-- Counting starts at the first token. -/
theorem again_pos {a b e : SourcePos} {l l' : List PTok} (h : Between a l b) (hl : l ≠ []) :
    Between a (annotate (AIter.pos ⟨l ++ l', e⟩) (l.map (·.2))) b ∧
      (posAfter (AIter.pos ⟨l ++ l', e⟩) (l.map (·.2))).NotAfter b ∧ a.NotAfter (AIter.pos ⟨l ++ l', e⟩) := by
  cases l with
  | nil => exact absurd rfl hl
  | cons x l =>
    have h1 : Between x.1 (x :: l) b := ⟨.refl _, h.2⟩
    exact ⟨((annotated _ _).right h1.again).left h.1, h1.again, h.1⟩

end Between

/-! ## Backticks -/

theorem chunkToks_append (cs : List (List Token × SourcePos)) (c : List Token) (p : SourcePos) :
    chunkToks (cs ++ [(c, p)]) = chunkToks cs ++ annotate p c := by simp [chunkToks]

theorem chunkLoop_between {a e : SourcePos} {b' b'' : Balanced AIter} (h' : b'.next = (none, b''))
    (h'' : b''.next = (none, b'')) (n : Nat) : ∀ (xs : List PTok) (b : Balanced AIter) (cs chunk start c),
    Balanced.Steps b xs b' → xs.length < n → Between a (chunkToks cs) start →
    (posAfter start chunk).NotAfter c → Between c xs e →
    ∃ cs', chunkLoop n cs chunk start b = (.ok cs', b'') ∧ Between a (chunkToks cs') e := by
  induction n with
  | zero => intro xs b cs chunk start c _ h; omega
  | succ n ih =>
    intro xs b cs chunk start c hs hn hcs hc hx
    have push : ∀ {r}, (posAfter start chunk).NotAfter r → Between a (chunkToks (cs ++ [(chunk, start)])) r := by
      intro r hr
      rw [chunkToks_append]
      exact hcs.append ((Between.annotated _ _).right hr)
    cases hs with
    | nil =>
      refine ⟨if chunk.isEmpty then cs else cs ++ [(chunk, start)], by simp [chunkLoop, h'], ?_⟩
      split
      · exact hcs.right ((notAfter_posAfter _ _).trans (hc.trans hx))
      · exact push (hc.trans hx)
    | @cons _ b1 _ p t xs hpos hnext hs =>
      have hp : (posAfter start chunk).NotAfter p := hc.trans hx.1
      by_cases ht : t = .Backslash
      · subst ht
        cases hs with
        | nil =>
          cases n with
          | zero => simp at hn
          | succ n =>
            refine ⟨cs ++ [(chunk ++ [.Backslash], start)], by simp [chunkLoop, hnext, h', h''], ?_⟩
            rw [chunkToks_append]
            refine hcs.append ((Between.annotated _ _).right ?_)
            rw [posAfter_append]
            exact (hp.advance _).trans hx.2
        | @cons _ b2 _ q u xs hpos2 hnext2 hs =>
          have hq : (p.advance .Backslash).NotAfter q := hx.2.1
          by_cases hu : u.backtickSpecial = true
          · obtain ⟨cs', h1, h2⟩ := ih xs b2 (cs ++ [(chunk, start)]) [u] q (q.advance u) hs (by simp at hn; omega)
              (push (hp.trans ((notAfter_advance _ _).trans hq))) (.refl _) hx.2.2
            exact ⟨cs', by rw [← h1]; simp [chunkLoop, hnext, hnext2, hu, hpos2], h2⟩
          · obtain ⟨cs', h1, h2⟩ := ih xs b2 cs (chunk ++ [.Backslash, u]) start (q.advance u) hs
              (by simp at hn; omega) hcs
              (by rw [posAfter_append]; exact ((hp.advance _).trans hq).advance u) hx.2.2
            exact ⟨cs', by rw [← h1]; simp [chunkLoop, hnext, hnext2, hu], h2⟩
      · obtain ⟨cs', h1, h2⟩ := ih xs b1 cs (chunk ++ [t]) start (p.advance t) hs (by simp at hn; omega) hcs
          (by rw [posAfter_append]; exact hp.advance t) hx.2
        refine ⟨cs', ?_, h2⟩
        rw [← h1]
        cases t <;> first | exact absurd rfl ht | simp [chunkLoop, hnext]

theorem subIter_between {xs : List PTok} (hb : Body .Backtick xs) (p q : SourcePos)
    (ys : List PTok) (e a : SourcePos) (hx : Between a xs q) :
    ∃ sub : AIter, tokenIterFromBackticked (⟨xs ++ (q, .Backtick) :: ys, e⟩ : AIter) p =
      (.ok sub, ⟨ys, e⟩) ∧ Between a sub.rest q ∧ sub.endPos = AIter.pos ⟨ys, e⟩ := by
  unfold tokenIterFromBackticked createTokenIter backticked
  rw [Balanced.new_delim]
  have h0 : ∃ c, (AIter.pos ⟨xs ++ (q, .Backtick) :: ys, e⟩).NotAfter c ∧ Between c xs q ∧
      a.NotAfter (AIter.pos ⟨xs ++ (q, .Backtick) :: ys, e⟩) := by
    cases xs with
    | nil => exact ⟨q, .refl _, .refl _, hx⟩
    | cons x xs => exact ⟨x.1, .refl _, ⟨.refl _, hx.2⟩, hx.1⟩
  obtain ⟨c, hc1, hc2, hc3⟩ := h0
  obtain ⟨cs, h1, h2⟩ := chunkLoop_between (a := a) (e := q)
    (b'' := { Balanced.mk' true [] ys e with done := true })
    (by rw [Balanced.next_close]; rfl) (by exact Balanced.next_done _ rfl rfl)
    ((xs ++ (q, .Backtick) :: ys).length + 2) xs _ [] []
    (AIter.pos ⟨xs ++ (q, .Backtick) :: ys, e⟩) c
    (Balanced.body_steps hb (by simp [Closer]) true p [] ((q, .Backtick) :: ys) e (by simp))
    (by simp; omega) hc3 hc1 hc2
  rw [show TokStream.len (Balanced.mk' true [(Token.Backtick, p)] (xs ++ (q, Token.Backtick) :: ys) e).iter
    = (xs ++ (q, Token.Backtick) :: ys).length from rfl,
    show (Balanced.mk' true [(Token.Backtick, p)] (xs ++ (q, Token.Backtick) :: ys) e).pos =
      (AIter.pos ⟨xs ++ (q, .Backtick) :: ys, e⟩) from rfl, h1]
  simp only
  rw [foldr_buffer]
  exact ⟨_, rfl, h2, rfl⟩

/-! ## Here-documents -/

theorem byteLen_tabs (w : Str) : Gram.tabs w + Str.byteLen (w.dropWhile (· = '\t')) = Str.byteLen w := by
  have := byteLen_append (w.takeWhile (· = '\t')) (w.dropWhile (· = '\t'))
  rw [List.takeWhile_append_dropWhile] at this
  unfold Gram.tabs
  omega

theorem posAfter_untab (p : SourcePos) (w : Str) :
    (posAfter (p.advanceTabs (Gram.tabs w)) (Gram.untab w)).NotAfter (p.advance (.Whitespace w)) := by
  have h := byteLen_tabs w
  have hn : ((w.dropWhile (· = '\t')).filter (· == '\n')).length ≤ (w.filter (· == '\n')).length :=
    ((List.dropWhile_suffix _).sublist.filter _).length_le
  unfold Gram.untab
  simp only
  split
  · rename_i h0
    rw [h0] at h
    constructor
    · show p.byte + Gram.tabs w ≤ p.byte + Str.byteLen w
      simp [Str.byteLen] at h ⊢
      omega
    · exact Nat.le_add_right _ _
  · constructor
    · show p.byte + Gram.tabs w + Str.byteLen (w.dropWhile (· = '\t')) ≤ p.byte + Str.byteLen w
      omega
    · show p.line + _ ≤ p.line + _
      exact Nat.add_le_add_left hn _

theorem posAfter_tabs (p : SourcePos) (n : Nat) (ts : List Token) :
    (posAfter (p.advanceTabs n) ts).byte = (posAfter p ts).byte + n ∧
      (posAfter (p.advanceTabs n) ts).line = (posAfter p ts).line := by
  suffices ∀ q : SourcePos, q.byte = p.byte + n → q.line = p.line →
      (posAfter q ts).byte = (posAfter p ts).byte + n ∧ (posAfter q ts).line = (posAfter p ts).line from
    this _ rfl rfl
  induction ts generalizing p with
  | nil => exact fun q h1 h2 => ⟨h1, h2⟩
  | cons t ts ih =>
    intro q h1 h2
    exact ih (p.advance t) (q.advance t) (by simp only [SourcePos.advance, h1]; omega)
      (by simp only [SourcePos.advance, h2])

theorem posAfter_strip (p : SourcePos) (c : List Token) :
    (posAfter (p.advanceTabs (Gram.stripped c)) (Gram.stripLine c)).NotAfter (posAfter p c) := by
  fun_induction Gram.stripLine c generalizing p with
  | case1 => exact .refl _
  | case2 w => exact posAfter_untab p w
  | case3 w t r ih =>
    have h1 := posAfter_untab p w
    have h2 := ih ((p.advance (.Whitespace w)).advance t)
    refine .trans ?_ h2
    have h3 := ((h1.advance t).posAfter (Gram.stripLine r))
    have h4 := posAfter_tabs (p.advanceTabs (Gram.tabs w)) (Gram.stripped r) (Gram.untab w ++ t :: Gram.stripLine r)
    have h5 := posAfter_tabs ((p.advance (.Whitespace w)).advance t) (Gram.stripped r) (Gram.stripLine r)
    rw [Gram.advanceTabs_add, posAfter_append] at h4
    show (posAfter (p.advanceTabs (Gram.tabs w + Gram.stripped r)) _).NotAfter _
    rw [posAfter_append]
    rw [posAfter_append] at h4
    constructor
    · rw [h4.1, h5.1]; exact Nat.add_le_add_right h3.1 _
    · rw [h4.2, h5.2]; exact h3.2
  | case4 t r h1 h2 ih =>
    have h3 : Gram.stripped (t :: r) = Gram.stripped r := by
      cases t <;> first | rfl | (cases r <;> simp_all)
    rw [h3]
    have h4 := ih (p.advance t)
    have h5 := posAfter_tabs p (Gram.stripped r) (t :: Gram.stripLine r)
    have h6 := posAfter_tabs (p.advance t) (Gram.stripped r) (Gram.stripLine r)
    constructor
    · rw [h5.1]; have := h4.1; rw [h6.1] at this; exact this
    · rw [h5.2]; have := h4.2; rw [h6.2] at this; exact this

theorem posAfter_lineOf (strip : Bool) (p : SourcePos) (c : List Token) :
    (posAfter (p.advanceTabs (Gram.cut strip c)) (Gram.lineOf strip c)).NotAfter (posAfter p c) := by
  cases strip with
  | true => exact posAfter_strip p c
  | false => exact .refl _

theorem notAfter_tabs (p : SourcePos) (n : Nat) : p.NotAfter (p.advanceTabs n) :=
  ⟨Nat.le_add_right _ _, Nat.le_refl _⟩

theorem bodyLines_between {strip : Bool} {e a b : SourcePos} {l r : List PTok} {cs}
    (h : BodyLines strip e l cs r) (hb : Between a l b) :
    Between a (cs.flatMap fun c => annotate c.2 c.1) b := by
  induction h generalizing a with
  | delim => exact hb.le
  | eof => exact hb.le
  | @line c q l p cs r h1 h2 _ ih =>
    obtain ⟨m, h3, h4⟩ := hb.split
    have h5 : Between a (c ++ [(q, .Newline)]) (q.advance .Newline) :=
      h3.append ⟨h4.1, .refl _⟩
    obtain ⟨-, h6, h7⟩ := h5.again_pos (e := e) (l' := l) (by simp)
    rw [List.append_assoc] at h6 h7
    simp only [List.singleton_append, List.map_append, List.map_cons, List.map_nil] at h6 h7
    rw [List.flatMap_cons]
    refine Between.append (b := q.advance .Newline) ?_ (ih h4.2)
    simp only [h2]
    refine ((Between.annotated _ _).right ?_).left (h7.trans (notAfter_tabs _ _))
    rw [posAfter_append] at h6 ⊢
    exact ((posAfter_lineOf strip _ _).advance _).trans h6
  | @lastLine c p h1 h2 =>
    simp only [List.flatMap_cons, List.flatMap_nil, List.append_nil, h2]
    cases c with
    | nil => cases strip <;> exact hb
    | cons x c =>
      obtain ⟨-, h6, h7⟩ := hb.again_pos (e := e) (l' := []) (by simp)
      rw [List.append_nil] at h6 h7
      exact ((Between.annotated _ _).right ((posAfter_lineOf strip _ _).trans h6)).left
        (h7.trans (notAfter_tabs _ _))

/-! ## The theory -/

/-- The tokens of the stream, and where it ends, are between the two positions. -/
structure Within2 (a b : SourcePos) (it : AIter) : Prop where
  toks : Between a it.rest b
  ge : a.NotAfter it.endPos
  le : it.endPos.NotAfter b

theorem Within2.pos {a b : SourcePos} {it : AIter} (h : Within2 a b it) :
    a.NotAfter it.pos ∧ it.pos.NotAfter b := ⟨h.toks.pos h.ge, h.toks.pos_le h.le⟩

theorem within_here {a b p : SourcePos} {t : Token} {r : List PTok} {e : SourcePos} {it body : AIter}
    (h : Within2 a b ⟨(p, t) :: r, e⟩) (hh : Here t ⟨r, e⟩ it body) : Within2 a b it ∧ Within2 a b body := by
  obtain ⟨d, sv, l, cs, r', h1, h2, h3, rfl, rfl⟩ := hh
  simp only at h1 h3
  subst h1
  have h4 : Between a (d ++ (sv ++ l)) b := (h.toks.2.left (notAfter_advance _ _)).left h.toks.1
  obtain ⟨m, h5, h6⟩ := h4.split
  obtain ⟨m', h7, h8⟩ := h6.split
  have ha : a.NotAfter m' := (h5.le.trans h7.le)
  obtain ⟨z, rfl, -⟩ := h3.suffix
  obtain ⟨m'', h9, h10⟩ := h8.split
  refine ⟨⟨?_, h.ge, h.le⟩, ⟨(bodyLines_between h3 h8).left ha, ?_, h8.pos_le h.le⟩⟩
  · by_cases hs : sv = []
    · subst hs
      exact h10.left (ha.trans h9.le)
    · obtain ⟨h11, -, -⟩ := h7.again_pos (e := e) (l' := z ++ r') hs
      exact (h11.left h5.le).append (h10.left h9.le)
  · exact (h8.left ha).pos h.ge

/-- All streams that are read lie between the two positions. -/
@[reducible] def Theory.ordered (B : Builder) (a b : SourcePos) : Theory B where
  J := Within2 a b
  K _ := True
  KE _ _ := True
  KP _ := True
  HS := True
  LB := True
  FN := True
  next h := ⟨(h.toks.2.left (notAfter_advance _ _)).left h.toks.1, h.ge, h.le⟩
  sub := by
    intro p q xs ys e sub h hb heq
    have h0 : Between a (xs ++ (q, .Backtick) :: ys) b := (h.toks.2.left (notAfter_advance _ _)).left h.toks.1
    obtain ⟨m, h1, h2⟩ := h0.split
    obtain ⟨sub', h3, h4, h5⟩ := subIter_between hb p q ys e a (h1.right h2.1)
    rw [heq] at h3
    cases h3
    have h6 : Between a ys b := (h2.2.left (notAfter_advance _ _)).left (h1.le.trans h2.1)
    exact ⟨h4.right ((notAfter_advance _ _).trans h2.2.le), h5 ▸ h6.pos h.ge, h5 ▸ h6.pos_le h.le⟩
  seen _ _ := trivial
  here h _ hh := within_here h hh
  fn _ _ := trivial
  call := by
    intro c b _ hc _
    split <;> trivial

theorem within_err {B : Builder} {a b : SourcePos} {err : ParseError B.Error} {st : B.State}
    (h : (Theory.ordered B a b).Err err st) : ∀ p ∈ positions err, a.NotAfter p ∧ p.NotAfter b := by
  intro p hp
  have key : ∀ {t p}, (Theory.ordered B a b).At t p → a.NotAfter p ∧ p.NotAfter b :=
    fun ⟨r, e, h⟩ => h.pos
  cases err with
  | Custom e => simp [positions] at hp
  | UnexpectedEOF => simp [positions] at hp
  | Unexpected t p => obtain rfl : _ = _ := by simpa [positions] using hp
                      exact key h.2
  | BadSubst t p => obtain rfl : _ = _ := by simpa [positions] using hp
                    exact key h.2
  | BadIdent s p => obtain rfl : _ = _ := by simpa [positions] using hp
                    exact key h.2
  | Unmatched t p =>
    obtain rfl : _ = _ := by simpa [positions] using hp
    rcases h.2.2 with h | ⟨-, it, bs, q, r, h1, h2, -⟩
    · exact key h
    · exact h2 ▸ h1.pos
  | BadFd p' q =>
    simp only [positions, List.mem_cons, List.not_mem_nil, or_false] at hp
    obtain ⟨-, ⟨it, h1, h2⟩, ⟨it', h3, h4⟩, -⟩ := h
    rcases hp with rfl | rfl
    · exact h2 ▸ h1.pos
    · exact h4 ▸ h3.pos
  | IncompleteCmd c p' k q =>
    obtain ⟨-, -, ⟨l, e, r, h1, h2, -⟩, ⟨l', e', h3, h4, -⟩, -⟩ := h
    simp only [positions, List.mem_cons, List.not_mem_nil, or_false] at hp
    rcases hp with rfl | rfl
    · exact h2 ▸ h1.pos
    · exact h4 ▸ h3.pos

/-! ## C49 -/

theorem ordered_run {B : Builder} {a b : SourcePos} {s : PSt CIter B} (h : Within2 a b s.it.1.abs) (m : Method) :
    (∀ x s', m.run s = (.ok x, s') → Within2 a b s'.it.1.abs ∧ s'.it.1.abs.endPos = s.it.1.abs.endPos) ∧
    ∀ err, (m.run s).1 = .err err → ∀ p ∈ positions err, a.NotAfter p ∧ p.NotAfter b := by
  have ht := tr_method (T := Theory.ordered B a b) m (s := s.abs) ⟨h, trivial⟩ (fun _ => .inl trivial)
  unfold Theory.Tr at ht
  rw [Method.run_abs] at ht
  constructor
  · intro x s' hr
    rw [hr] at ht
    exact ⟨ht.1.j, ht.1.endPos⟩
  · intro err hr
    rw [hr] at ht
    exact within_err ht.1

/-- The tokens of the parser start where it is and end where its input ends. -/
def Tidy2 {B : Builder} (b : SourcePos) (s : PSt CIter B) : Prop :=
  Within2 s.pos b s.it.1.abs ∧ s.it.1.abs.endPos = b

theorem tidy_of {B : Builder} {a b : SourcePos} {s : PSt CIter B} (h : Within2 a b s.it.1.abs)
    (he : s.it.1.abs.endPos = b) : Tidy2 b s := by
  refine ⟨⟨?_, ?_, h.le⟩, he⟩
  · rw [PSt.pos_eq]
    have := h.toks
    generalize s.it.1.abs = it at *
    obtain ⟨l, e⟩ := it
    cases l with
    | nil => exact he ▸ SourcePos.NotAfter.refl _
    | cons x l => exact ⟨.refl _, this.2⟩
  · rw [PSt.pos_eq, he]; exact h.pos.2

theorem tidy_calls {B : Builder} {b : SourcePos} {s s' : PSt CIter B} (h : Calls s s') (hs : Tidy2 b s) :
    Tidy2 b s' ∧ s.pos.NotAfter s'.pos := by
  induction h with
  | nil => exact ⟨hs, .refl _⟩
  | @cons s s1 s' m a h _ ih =>
    obtain ⟨h1, h2⟩ := (ordered_run hs.1 m).1 _ _ h
    have h3 := tidy_of h1 (h2.trans hs.2)
    refine ⟨(ih h3).1, .trans ?_ (ih h3).2⟩
    rw [PSt.pos_eq s1]
    exact h1.pos.1

theorem tidy_new {B : Builder} (ts : List Token) (b : B.State) :
    Tidy2 (posAfter .new ts) (PSt.new ts b : PSt CIter B) := by
  have : (PSt.new ts b : PSt CIter B).it.1.abs = AIter.ofTokens ts := cSim.ofTokens _
  refine tidy_of (a := .new) ?_ (by rw [this]; rfl)
  rw [this]
  exact ⟨Between.annotated _ _, notAfter_posAfter _ _, .refl _⟩

/-- C49: while the parsing methods succeed, the position of the parser never goes back, and it never gets
beyond the end of the input. -/
theorem C49_position_moves_forward {B : Builder} (ts : List Token) (b : B.State) (s s' : PSt CIter B)
    (hs : Calls (PSt.new ts b) s) (h : Calls s s') :
    s.pos.NotAfter s'.pos ∧ s'.pos.NotAfter (posAfter .new ts) := by
  obtain ⟨h1, -⟩ := tidy_calls hs (tidy_new ts b)
  obtain ⟨h2, h3⟩ := tidy_calls h h1
  exact ⟨h3, by rw [PSt.pos_eq]; exact h2.1.pos.2⟩

/-- C49: an error of a parsing method never points to before the position where the method was called, and
never beyond the end of the input, whatever here-documents and backticks the input has. -/
theorem C49_errors_point_forward {B : Builder} (ts : List Token) (b : B.State) (s : PSt CIter B)
    (hs : Calls (PSt.new ts b) s) (m : Method) (err : ParseError B.Error) (h : (m.run s).1 = .err err) :
    ∀ p ∈ positions err, s.pos.NotAfter p ∧ p.NotAfter (posAfter .new ts) :=
  (ordered_run (tidy_calls hs (tidy_new ts b)).1.1 m).2 err h

/-- C49 for sources: the byte offset of an error is within the source (so it can be used to cut the
source), and its line is one of the lines of the source; neither is before the place where the method was
called. This holds for every source: where `C18_heredoc_shifts_positions` and its companions show that a
position can be wrong, it is still inside. -/
theorem C49_errors_inside_source {B : Builder} (cc : CharClass) (src : Str) (b : B.State) (s : PSt CIter B)
    (hs : Calls (PSt.new (lex cc src) b) s) (m : Method) (err : ParseError B.Error)
    (h : (m.run s).1 = .err err) (p : SourcePos) (hp : p ∈ positions err) :
    s.pos.byte ≤ p.byte ∧ p.byte ≤ src.byteLen ∧ s.pos.line ≤ p.line ∧ p.line ≤ 1 + src.count '\n' := by
  obtain ⟨⟨h1, h2⟩, h3, h4⟩ := C49_errors_point_forward _ b s hs m err h p hp
  have := posAfter_posOf (lex cc src) (fun t ht => lex_nlOk cc src t ht) []
  rw [List.nil_append, C01_lexer_loses_nothing] at this
  rw [show SourcePos.new = posOf [] from rfl, this] at h3 h4
  exact ⟨h1, h3, h2, h4⟩

/-- C49, when earlier calls failed: then too the position of the parser and the positions of errors are inside
the source. (They may be before the place of the call, but only after an error in the body of a
here-document.) -/
theorem C49_inside_source_after_errors {B : Builder} (cc : CharClass) (src : Str) (b : B.State) (s : PSt CIter B)
    (hs : History (PSt.new (lex cc src) b) s) :
    (s.pos.byte ≤ src.byteLen ∧ s.pos.line ≤ 1 + src.count '\n') ∧
    ∀ (m : Method) err, (m.run s).1 = .err err → ∀ p ∈ positions err,
      p.byte ≤ src.byteLen ∧ p.line ≤ 1 + src.count '\n' := by
  have key : ∀ {s s' : PSt CIter B}, History s s' → Within2 .new (posAfter .new (lex cc src)) s.it.1.abs →
      Within2 .new (posAfter .new (lex cc src)) s'.it.1.abs := by
    intro s s' h
    induction h with
    | nil => exact id
    | @ok s s1 s' m a h _ ih => exact fun hw => ih ((ordered_run hw m).1 _ _ h).1
    | @err s s1 s' m e h _ ih =>
      intro hw
      refine ih ?_
      have ht := tr_method (T := Theory.ordered B _ _) m (s := s.abs) ⟨hw, trivial⟩ (fun _ => .inl trivial)
      unfold Theory.Tr at ht
      rw [Method.run_abs, h] at ht
      exact ht.2.j
  have h1 := key hs (by
    rw [show (PSt.new (lex cc src) b : PSt CIter B).it.1.abs = AIter.ofTokens (lex cc src) from cSim.ofTokens _]
    exact ⟨Between.annotated _ _, notAfter_posAfter _ _, .refl _⟩)
  have := posAfter_posOf (lex cc src) (fun t ht => lex_nlOk cc src t ht) []
  rw [List.nil_append, C01_lexer_loses_nothing] at this
  rw [show posAfter .new (lex cc src) = posOf src from this] at h1
  refine ⟨?_, fun m err h p hp => ((ordered_run h1 m).2 err h p hp).2⟩
  rw [PSt.pos_eq]
  exact h1.pos.2

/-- C49: a here-document with tabs inside a line, after another command, and an error in its body. The
position reported (byte 16 of line 3) is not where the error is, but it is after the position of the call
(byte 2) and inside the source. -/
example : ∃ s a, Method.completeCommand.run (parserOf "x\ncat <<-E\n\t${ abc\t\tb\nE\n") = (.ok a, s) ∧
    s.pos = ⟨2, 2, 1⟩ ∧
    ∃ err, (Method.completeCommand.run s).1 = .err err ∧ ⟨16, 3, 6⟩ ∈ positions err := by
  have h : (match Method.completeCommand.run (parserOf "x\ncat <<-E\n\t${ abc\t\tb\nE\n") with
    | (.ok _, s) => decide (s.pos = ⟨2, 2, 1⟩) && (match (Method.completeCommand.run s).1 with
      | .err e => decide (⟨16, 3, 6⟩ ∈ positions e)
      | _ => false)
    | _ => false) = true := by decide +kernel
  generalize Method.completeCommand.run (parserOf "x\ncat <<-E\n\t${ abc\t\tb\nE\n") = z at h
  split at h
  · rename_i a s
    simp only [Bool.and_eq_true, decide_eq_true_eq] at h
    obtain ⟨h0, h⟩ := h
    split at h
    · rename_i e he
      exact ⟨s, a, rfl, h0, e, he, by simpa using h⟩
    · simp at h
  · simp at h

end Conch
