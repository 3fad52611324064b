import Verif.BalancedProofs
import Verif.IterSim
/-!
# Properties C11 and C12: balanced scanning, backtick unescaping
-/
namespace Conch
open Spec

theorem Spec.Unclosed.prepend {c : Token} {p : SourcePos} {pre l : List PTok} {e : UnmatchedError}
    (hp : ∀ xs, xs <+: l → Body c xs → Body c (pre ++ xs)) (h : Unclosed c p l e) :
    Unclosed c p (pre ++ l) e := by
  cases h with
  | here hb => exact .here (hp _ (List.prefix_refl _) hb)
  | backslash hc hb =>
    rw [← List.append_assoc]
    exact .backslash hc (hp _ (List.prefix_append _ _) hb)
  | inner hc ho hb hop hu =>
    rw [← List.append_assoc]
    exact .inner hc ho (hp _ (List.prefix_append _ _) hb) hop hu
  | innerBrace hc hb hu =>
    rw [← List.append_assoc]
    exact .innerBrace hc (hp _ (List.prefix_append _ _) hb) hu

/-- Every region is either closed or not. -/
theorem closed_or_unclosed (l : List PTok) (c : Token) (p : SourcePos) (hc : Closer c) :
    (∃ xs q ys, l = xs ++ (q, c) :: ys ∧ Body c xs) ∨ ∃ e, Unclosed c p l e := by
  -- continue after a prefix that belongs to the body
  have go : ∀ (pre l : List PTok) (c : Token) (p : SourcePos),
      (∀ xs, xs <+: l → Body c xs → Body c (pre ++ xs)) →
      ((∃ xs q ys, l = xs ++ (q, c) :: ys ∧ Body c xs) ∨ ∃ e, Unclosed c p l e) →
      (∃ xs q ys, pre ++ l = xs ++ (q, c) :: ys ∧ Body c xs) ∨ ∃ e, Unclosed c p (pre ++ l) e := by
    rintro pre l c p hp (⟨xs, q, ys, rfl, hb⟩ | ⟨e, he⟩)
    · exact .inl ⟨pre ++ xs, q, ys, by simp, hp _ (List.prefix_append _ _) hb⟩
    · exact .inr ⟨e, he.prepend hp⟩
  match l with
  | [] => exact .inr ⟨_, .here .nil⟩
  | (pt, t) :: l =>
    by_cases htc : t = c
    · subst htc; exact .inl ⟨[], pt, l, rfl, .nil⟩
    by_cases hq : c = .SingleQuote
    · subst hq
      exact go [(pt, t)] l _ p (fun xs _ hb => .quoted htc hb) (closed_or_unclosed l _ p hc)
    by_cases hbs : t = .Backslash
    · subst hbs
      match l with
      | [] => exact .inr ⟨_, .backslash (xs := []) hq .nil⟩
      | u :: l =>
        exact go [(pt, .Backslash), u] l c p (fun xs _ hb => .escape hq hb)
          (closed_or_unclosed l c p hc)
    by_cases hd : t = .Dollar
    · subst hd
      by_cases hcu : l.head?.map (·.2) = some .CurlyOpen
      · match l with
        | [] => cases hcu
        | (q, u) :: l =>
          simp at hcu
          subst hcu
          rcases closed_or_unclosed l .CurlyClose q (by simp [Closer]) with
            ⟨xs, r, ys, rfl, hb⟩ | ⟨e, he⟩
          · have := go ((pt, .Dollar) :: (q, .CurlyOpen) :: (xs ++ [(r, .CurlyClose)])) ys c p
              (fun zs _ hz => by simpa using Body.brace hq hb hz) (closed_or_unclosed ys c p hc)
            simpa using this
          · exact .inr ⟨e, .innerBrace (xs := []) hq .nil he⟩
      · refine go [(pt, .Dollar)] l c p (fun xs hx hb => .dollar hq ?_ hb)
          (closed_or_unclosed l c p hc)
        rcases xs with _ | ⟨x, xs⟩
        · simp
        · obtain ⟨r, rfl⟩ := hx
          exact hcu
    by_cases hop : ∃ c', Opens (some c) t c'
    · obtain ⟨c', hop⟩ := hop
      rcases closed_or_unclosed l c' pt (Balanced.opens_closer hop) with ⟨xs, q, ys, rfl, hb⟩ | ⟨e, he⟩
      · have := go ((pt, t) :: (xs ++ [(q, c')])) ys c p
          (fun zs _ hz => by simpa using Body.nested (o := (pt, t)) hq htc hop hb hz)
          (closed_or_unclosed ys c p hc)
        simpa using this
      · exact .inr ⟨e, .inner (xs := []) (o := (pt, t)) hq htc .nil hop he⟩
    · exact go [(pt, t)] l c p
        (fun xs _ hb => .plain hq htc ⟨hbs, hd, fun c' h => hop ⟨c', h⟩⟩ hb)
        (closed_or_unclosed l c p hc)
termination_by l.length
decreasing_by all_goals (subst_vars; simp; try omega)

/-- The same outside of all regions. -/
theorem unit_or_unclosed (l : List PTok) :
    (∃ u rest, l = u ++ rest ∧ TopUnit u rest) ∨ ∃ e, TopUnclosed l e := by
  match l with
  | [] => exact .inl ⟨[], [], rfl, .empty⟩
  | (pt, t) :: l =>
    by_cases hbs : t = .Backslash
    · subst hbs
      match l with
      | [] => exact .inl ⟨_, [], rfl, .lastBackslash⟩
      | u :: l => exact .inl ⟨[(pt, .Backslash), u], l, rfl, .escape⟩
    by_cases hd : t = .Dollar
    · subst hd
      match l with
      | [] => exact .inl ⟨[(pt, .Dollar)], [], rfl, .dollar (by simp) (by simp)⟩
      | (q, u) :: l =>
        by_cases h1 : u = .CurlyOpen
        · subst h1
          rcases closed_or_unclosed l .CurlyClose q (by simp [Closer]) with
            ⟨xs, r, ys, rfl, hb⟩ | ⟨e, he⟩
          · exact .inl ⟨_, ys, by simp, .brace (p := pt) (q := q) (r := r) hb⟩
          · exact .inr ⟨e, .innerBrace he⟩
        by_cases h2 : u = .ParenOpen
        · subst h2
          rcases closed_or_unclosed l .ParenClose q (by simp [Closer]) with
            ⟨xs, r, ys, rfl, hb⟩ | ⟨e, he⟩
          · exact .inl ⟨_, ys, by simp, .dollarParen (p := pt) (q := q) (r := r) hb⟩
          · exact .inr ⟨e, .innerParen he⟩
        exact .inl ⟨[(pt, .Dollar)], (q, u) :: l, rfl, .dollar (by simpa using h1) (by simpa using h2)⟩
    by_cases hop : ∃ c', Opens none t c'
    · obtain ⟨c', hop⟩ := hop
      rcases closed_or_unclosed l c' pt (Balanced.opens_closer hop) with ⟨xs, q, ys, rfl, hb⟩ | ⟨e, he⟩
      · exact .inl ⟨_, ys, by simp, .nested (o := (pt, t)) (q := q) hop hb⟩
      · exact .inr ⟨e, .inner (o := (pt, t)) hop he⟩
    · exact .inl ⟨[(pt, t)], l, rfl, .plain ⟨hbs, hd, fun c' h => hop ⟨c', h⟩⟩⟩

namespace Balanced

theorem collectN_steps {b b' b'' : Balanced AIter} {xs : List PTok} (h : Steps b xs b')
    (h' : b'.next = (none, b'')) (n : Nat) (hn : xs.length < n) :
    b.collectN n = (.ok (xs.map (·.2)), b'') := by
  induction h generalizing n with
  | nil =>
    cases n with
    | zero => omega
    | succ n => simp [collectN, h']
  | cons h1 h2 _ ih =>
    cases n with
    | zero => omega
    | succ n =>
      simp at hn
      simp [collectN, h2, ih h' n (by omega)]

theorem collectN_steps_err {b b' b'' : Balanced AIter} {xs : List PTok} {e : UnmatchedError}
    (h : Steps b xs b') (h' : b'.next = (some (.error e), b'')) (n : Nat) (hn : xs.length < n) :
    b.collectN n = (.unmatched e, b'') := by
  induction h generalizing n with
  | nil =>
    cases n with
    | zero => omega
    | succ n => simp [collectN, h']
  | cons h1 h2 _ ih =>
    cases n with
    | zero => omega
    | succ n =>
      simp at hn
      simp [collectN, h2, ih h' n (by omega)]

theorem new_delim (l : List PTok) (e : SourcePos) (c : Token) (p : SourcePos) :
    Balanced.new (⟨l, e⟩ : AIter) (some (c, p)) = mk' true [(c, p)] l e := rfl

theorem new_none (l : List PTok) (e : SourcePos) :
    Balanced.new (⟨l, e⟩ : AIter) none = mk' false [] l e := rfl

theorem next_done (b : Balanced AIter) (h1 : b.escaped = none) (h2 : b.done = true) :
    b.next = (none, b) := by
  unfold next; rw [h1, h2]; rfl

/-- The units outside of all regions. -/
theorem unit_steps {u rest : List PTok} (h : TopUnit u rest) (e : SourcePos) :
    ∃ b b', Steps (mk' false [] (u ++ rest) e) u b ∧ b.next = (none, b') ∧
      b'.iter = ⟨rest, e⟩ := by
  have plain : ∀ (l : List PTok), l ≠ [] →
      (mk' false [] l e).next = (mk' false [] l e).nextPlain := by
    intro l hl
    cases l with
    | nil => exact absurd rfl hl
    | cons x l => exact next_eq_plain _ _ _ _ (by simp) (by simp)
  cases h with
  | empty =>
    refine ⟨_, { mk' false [] [] e with done := true }, .nil, ?_, rfl⟩
    simp [next, mk', AIter.peek, AIter.next]
  | @plain t _ ho =>
    obtain ⟨q, t⟩ := t
    refine ⟨_, _, .one rfl ?_, next_done { mk' false [] rest e with done := true } rfl rfl, rfl⟩
    rw [plain _ (by simp)]
    exact plain_ordinary _ _ _ _ _ _ ho
  | @escape p t =>
    refine ⟨_, _, .cons rfl (b1 := { mk' false [] rest e with
        escaped := some (t.2, AIter.pos ⟨rest, e⟩), done := true, pos := t.1 }) ?_
      (.one rfl (next_escaped _ _ _ rfl)), next_done _ rfl rfl, rfl⟩
    rw [plain _ (by simp)]
    exact plain_escape _ _ _ _ _ _
  | @lastBackslash p =>
    refine ⟨_, _, .one rfl ?_, next_done { mk' false [] [] e with done := true } rfl rfl, rfl⟩
    rw [plain _ (by simp)]
    exact plain_backslash_eof _ _ _ _
  | @nested c o xs q _ hop hb =>
    have hcl := opens_closer hop
    refine ⟨_, _, .cons (b1 := mk' false [(c, o.1)] (xs ++ (q, c) :: rest) e) rfl ?_
      ((body_steps hb hcl false o.1 [] ((q, c) :: rest) e ?_).append (.one rfl ?_)),
      next_done { mk' false [] rest e with done := true } rfl rfl, rfl⟩
    · rw [plain _ (by simp)]
      have := plain_opens false [] o.1 o.2 c (xs ++ (q, c) :: rest) e hop
      simpa using this
    · simpa using (closer_ne hcl).2.2.1
    · rw [next_close]; rfl
  | @brace p q r xs _ hb =>
    refine ⟨_, _, .cons (b1 := mk' false [(.CurlyClose, q)]
        ((q, .CurlyOpen) :: (xs ++ (r, .CurlyClose) :: rest)) e) rfl ?_
      (.cons (b1 := mk' false [(.CurlyClose, q)] (xs ++ (r, .CurlyClose) :: rest) e) rfl ?_
      ((body_steps hb (by simp [Closer]) false q [] ((r, .CurlyClose) :: rest) e (by simp)).append
        (.one rfl ?_))), next_done { mk' false [] rest e with done := true } rfl rfl, rfl⟩
    · rw [plain _ (by simp)]
      have := plain_brace false [] p q (xs ++ (r, .CurlyClose) :: rest) e
      simpa using this
    · rw [next_eq_plain _ _ _ _ (by simp) (by simp)]
      rw [plain_ordinary _ _ _ _ _ _ ⟨by simp, by simp, fun c' h => by cases h⟩]
      simp [mk']
    · rw [next_close]; rfl
  | @dollarParen p q r xs _ hb =>
    refine ⟨_, _, .cons (b1 := mk' false []
        ((q, .ParenOpen) :: (xs ++ (r, .ParenClose) :: rest)) e) rfl ?_
      (.cons (b1 := mk' false [(.ParenClose, q)] (xs ++ (r, .ParenClose) :: rest) e) rfl ?_
      ((body_steps hb (by simp [Closer]) false q [] ((r, .ParenClose) :: rest) e (by simp)).append
        (.one rfl ?_))), next_done { mk' false [] rest e with done := true } rfl rfl, rfl⟩
    · rw [plain _ (by simp)]
      have := plain_dollar false [] p ((q, .ParenOpen) :: (xs ++ (r, .ParenClose) :: rest)) e
        (by simp)
      simpa [mk'] using this
    · rw [plain _ (by simp)]
      exact plain_opens _ _ _ _ _ _ _ .paren
    · rw [next_close]; rfl
  | @dollar p _ h1 h2 =>
    refine ⟨_, _, .one rfl ?_, next_done { mk' false [] rest e with done := true } rfl rfl, rfl⟩
    rw [plain _ (by simp)]
    have := plain_dollar false [] p rest e h1
    have h3 : (rest.head?.map (·.2) != some .ParenOpen) = true := by simpa using h2
    rw [h3] at this
    simpa using this

theorem topUnclosed_steps {l : List PTok} {err : UnmatchedError} (h : TopUnclosed l err)
    (e : SourcePos) : ∃ b b', Steps (mk' false [] l e) l b ∧ b.next = (some (.error err), b') ∧
      b'.iter = ⟨[], e⟩ := by
  have plain : ∀ (l : List PTok), l ≠ [] →
      (mk' false [] l e).next = (mk' false [] l e).nextPlain := by
    intro l hl
    cases l with
    | nil => exact absurd rfl hl
    | cons x l => exact next_eq_plain _ _ _ _ (by simp) (by simp)
  cases h with
  | @inner c o l _ hop hu =>
    obtain ⟨b, b', h1, h2, h3⟩ := unclosed_steps hu (opens_closer hop) false [] e
    refine ⟨b, b', .cons rfl ?_ h1, h2, h3⟩
    rw [plain _ (by simp)]
    exact plain_opens _ _ _ _ _ _ _ hop
  | @innerBrace p q l _ hu =>
    obtain ⟨b, b', h1, h2, h3⟩ := unclosed_steps hu (by simp [Closer]) false [] e
    refine ⟨b, b', .cons rfl (b1 := mk' false [(.CurlyClose, q)] ((q, .CurlyOpen) :: l) e) ?_
      (.cons rfl ?_ h1), h2, h3⟩
    · rw [plain _ (by simp)]
      exact plain_brace _ _ _ _ _ _
    · rw [next_eq_plain _ _ _ _ (by simp) (by simp)]
      rw [plain_ordinary _ _ _ _ _ _ ⟨by simp, by simp, fun c' h => by cases h⟩]
      simp [mk']
  | @innerParen p q l _ hu =>
    obtain ⟨b, b', h1, h2, h3⟩ := unclosed_steps hu (by simp [Closer]) false [] e
    refine ⟨b, b', .cons rfl (b1 := mk' false [] ((q, .ParenOpen) :: l) e) ?_
      (.cons rfl ?_ h1), h2, h3⟩
    · rw [plain _ (by simp)]
      have := plain_dollar false [] p ((q, .ParenOpen) :: l) e (by simp)
      simpa [mk'] using this
    · rw [plain _ (by simp)]
      exact plain_opens _ _ _ _ _ _ _ .paren

end Balanced

/-! ## C12 on the list of positioned tokens -/

/-- The collected scan of a region, generically: `single_quoted`, `double_quoted`, `backticked`. -/
def Spec.takeRegion {I} [TokStream I] (it : I) (c : Token) (p : SourcePos) : Collected × I :=
  let (r, b) := (Balanced.new it (some (c, p))).collect
  (r, b.iter)

theorem takeRegion_closed {c : Token} {xs : List PTok} (hb : Body c xs) (hc : Closer c)
    (p q : SourcePos) (ys : List PTok) (e : SourcePos) :
    takeRegion (⟨xs ++ (q, c) :: ys, e⟩ : AIter) c p = (.ok (xs.map (·.2)), ⟨ys, e⟩) := by
  unfold takeRegion Balanced.collect
  rw [Balanced.new_delim]
  rw [Balanced.collectN_steps (b'' := { Balanced.mk' true [] ys e with done := true })
    (Balanced.body_steps hb hc true p [] ((q, c) :: ys) e (by simpa using (Balanced.closer_ne hc).2.2.1))
    (by rw [Balanced.next_close]; rfl) _ (by simp [Balanced.mk']; omega)]
  rfl

theorem takeRegion_unclosed {c : Token} {l : List PTok} {p : SourcePos} {err : UnmatchedError}
    (hu : Unclosed c p l err) (hc : Closer c) (e : SourcePos) :
    takeRegion (⟨l, e⟩ : AIter) c p = (.unmatched err, ⟨[], e⟩) := by
  obtain ⟨b, b', h1, h2, h3⟩ := Balanced.unclosed_steps hu hc true [] e
  unfold takeRegion Balanced.collect
  rw [Balanced.new_delim, Balanced.collectN_steps_err h1 h2 _ (by simp [Balanced.mk'])]
  simp [h3]

theorem takeBalanced_unit {u rest : List PTok} (h : TopUnit u rest) (e : SourcePos) :
    takeBalanced (⟨u ++ rest, e⟩ : AIter) = (.ok (u.map (·.2)), ⟨rest, e⟩) := by
  obtain ⟨b, b', h1, h2, h3⟩ := Balanced.unit_steps h e
  unfold takeBalanced Balanced.collect
  rw [Balanced.new_none, Balanced.collectN_steps h1 h2 _ (by simp [Balanced.mk']; omega)]
  simp [h3]

theorem takeBalanced_unclosed {l : List PTok} {err : UnmatchedError} (h : TopUnclosed l err)
    (e : SourcePos) : takeBalanced (⟨l, e⟩ : AIter) = (.unmatched err, ⟨[], e⟩) := by
  obtain ⟨b, b', h1, h2, h3⟩ := Balanced.topUnclosed_steps h e
  unfold takeBalanced Balanced.collect
  rw [Balanced.new_none, Balanced.collectN_steps_err h1 h2 _ (by simp [Balanced.mk'])]
  simp [h3]

/-! ## C12 for the code's stream -/

/-- C12: scanning a region (`single_quoted`, `double_quoted`, `backticked`) that was opened at `p`
and is closed by `c`, on the code's stream `it`: it yields the tokens `ts` iff the upcoming tokens
are a body whose tokens are `ts` followed by the closing token, and then exactly the tokens behind
the closing one are left; it reports `err` iff the region is not closed, and then `err` is the
innermost open one. Nothing else happens. -/
theorem C12_region (it : CIter) (c : Token) (p : SourcePos) (hc : Closer c) :
    (∀ ts, (takeRegion it c p).1 = .ok ts ↔
      ∃ xs q ys, it.1.abs.rest = xs ++ (q, c) :: ys ∧ Body c xs ∧ ts = xs.map (·.2)) ∧
    (∀ err, (takeRegion it c p).1 = .unmatched err ↔ Unclosed c p it.1.abs.rest err) ∧
    (∀ xs q ys, it.1.abs.rest = xs ++ (q, c) :: ys → Body c xs →
      (takeRegion it c p).2.1.abs = ⟨ys, it.1.abs.endPos⟩) := by
  have sim : (takeRegion it c p).1 = (takeRegion it.1.abs c p).1 ∧
      (takeRegion it c p).2.1.abs = (takeRegion it.1.abs c p).2 := by
    have := cSim.balanced_collect (cSim.balanced_new (i := it) (j := it.1.abs) rfl (some (c, p)))
    exact ⟨this.1, this.2.1⟩
  rw [sim.1, sim.2]
  generalize it.1.abs = a
  obtain ⟨l, e⟩ := a
  simp only
  refine ⟨fun ts => ⟨fun h => ?_, ?_⟩, fun err => ⟨fun h => ?_, fun h => ?_⟩, ?_⟩
  · rcases closed_or_unclosed l c p hc with ⟨xs, q, ys, rfl, hb⟩ | ⟨err, hu⟩
    · rw [takeRegion_closed hb hc] at h
      cases h
      exact ⟨xs, q, ys, rfl, hb, rfl⟩
    · rw [takeRegion_unclosed hu hc] at h; cases h
  · rintro ⟨xs, q, ys, rfl, hb, rfl⟩
    rw [takeRegion_closed hb hc]
  · rcases closed_or_unclosed l c p hc with ⟨xs, q, ys, rfl, hb⟩ | ⟨err', hu⟩
    · rw [takeRegion_closed hb hc] at h; cases h
    · rw [takeRegion_unclosed hu hc] at h
      cases h; exact hu
  · rw [takeRegion_unclosed h hc]
  · rintro xs q ys rfl hb
    rw [takeRegion_closed hb hc]

/-- C12: a single-quoted scan yields exactly the tokens before the next single quote, and fails
exactly if there is none, blaming the opening quote. -/
theorem C12_single_quoted (it : CIter) (p : SourcePos) :
    (∀ xs q ys, it.1.abs.rest = xs ++ (q, .SingleQuote) :: ys → (∀ x ∈ xs, x.2 ≠ .SingleQuote) →
      (takeSingleQuoted it p).1 = .ok (xs.map (·.2)) ∧
      (takeSingleQuoted it p).2.1.abs = ⟨ys, it.1.abs.endPos⟩) ∧
    ((∀ x ∈ it.1.abs.rest, x.2 ≠ .SingleQuote) →
      (takeSingleQuoted it p).1 = .unmatched ⟨.SingleQuote, p⟩) := by
  have body : ∀ xs : List PTok, (∀ x ∈ xs, x.2 ≠ .SingleQuote) → Body .SingleQuote xs := by
    intro xs
    induction xs with
    | nil => intro _; exact .nil
    | cons x xs ih =>
      intro h
      exact .quoted (h x (by simp)) (ih fun y hy => h y (by simp [hy]))
  obtain ⟨h1, h2, h3⟩ := C12_region it .SingleQuote p (by simp [Closer])
  refine ⟨fun xs q ys e hx => ⟨(h1 _).2 ⟨xs, q, ys, e, body xs hx, rfl⟩, h3 xs q ys e (body xs hx)⟩,
    fun h => (h2 _).2 (.here (body _ h))⟩

/-- C12: an unquoted scan takes exactly one unit (ordinary token, escaped token, or an opener with
everything up to its closing token) and leaves the rest; or reports the innermost unclosed opener.
It takes at least one token if there is one. -/
theorem C12_unquoted (it : CIter) :
    (∀ ts, (takeBalanced it).1 = .ok ts ↔
      ∃ u rest, it.1.abs.rest = u ++ rest ∧ TopUnit u rest ∧ ts = u.map (·.2)) ∧
    (∀ err, (takeBalanced it).1 = .unmatched err ↔ TopUnclosed it.1.abs.rest err) ∧
    (∀ u rest, it.1.abs.rest = u ++ rest → TopUnit u rest →
      (takeBalanced it).2.1.abs = ⟨rest, it.1.abs.endPos⟩) ∧
    (∀ ts, (takeBalanced it).1 = .ok ts → it.1.abs.rest ≠ [] → ts ≠ []) := by
  obtain ⟨s1, s2⟩ := cSim.takeBalanced (i := it) (j := it.1.abs) rfl
  change _ = (takeBalanced it.1.abs).2 at s2
  rw [s1, s2]
  generalize it.1.abs = a
  obtain ⟨l, e⟩ := a
  simp only
  have key : ∀ ts, (takeBalanced (⟨l, e⟩ : AIter)).1 = .ok ts ↔
      ∃ u rest, l = u ++ rest ∧ TopUnit u rest ∧ ts = u.map (·.2) := by
    refine fun ts => ⟨fun h => ?_, ?_⟩
    · rcases unit_or_unclosed l with ⟨u, rest, rfl, hu⟩ | ⟨err, hu⟩
      · rw [takeBalanced_unit hu] at h
        cases h
        exact ⟨u, rest, rfl, hu, rfl⟩
      · rw [takeBalanced_unclosed hu] at h; cases h
    · rintro ⟨u, rest, rfl, hu, rfl⟩
      rw [takeBalanced_unit hu]
  refine ⟨key, fun err => ⟨fun h => ?_, fun h => ?_⟩, ?_, fun ts h hl => ?_⟩
  · rcases unit_or_unclosed l with ⟨u, rest, rfl, hu⟩ | ⟨err', hu⟩
    · rw [takeBalanced_unit hu] at h; cases h
    · rw [takeBalanced_unclosed hu] at h
      cases h; exact hu
  · rw [takeBalanced_unclosed h]
  · rintro u rest rfl hu
    rw [takeBalanced_unit hu]
  · obtain ⟨u, rest, rfl, hu, rfl⟩ := (key ts).1 h
    cases hu <;> first | exact absurd rfl hl | simp

example : TopUnit ((annotate .new [.Dollar, .ParenOpen, .SingleQuote, .ParenClose, .SingleQuote,
    .DoubleQuote, .ParenOpen, .ParenClose, .DoubleQuote, .ParenClose])) [] := by
  have h1 : Body .SingleQuote [(⟨3, 1, 4⟩, .ParenClose)] := .quoted (by simp) .nil
  have h3 : Body .ParenClose [] := .nil
  have h2 : Body .DoubleQuote ((⟨6, 1, 7⟩, .ParenOpen) :: ([] ++ (⟨7, 1, 8⟩, .ParenClose) :: [])) :=
    .nested (by simp) (by simp) .paren h3 .nil
  have h4 : Body .ParenClose ((⟨2, 1, 3⟩, .SingleQuote) :: ([(⟨3, 1, 4⟩, .ParenClose)] ++
      (⟨4, 1, 5⟩, .SingleQuote) :: ((⟨5, 1, 6⟩, .DoubleQuote) ::
      (((⟨6, 1, 7⟩, .ParenOpen) :: ([] ++ (⟨7, 1, 8⟩, .ParenClose) :: [])) ++
        (⟨8, 1, 9⟩, .DoubleQuote) :: [])))) :=
    .nested (by simp) (by simp) (.squote (by simp)) h1 (.nested (by simp) (by simp) .dquote h2 .nil)
  exact TopUnit.dollarParen h4

/-! ## C11: backtick bodies -/

theorem annotate_append (p : SourcePos) (as bs : List Token) :
    annotate p (as ++ bs) = annotate p as ++ annotate (posAfter p as) bs := by
  induction as generalizing p with
  | nil => rfl
  | cons a as ih => simp [annotate, posAfter, ih]

theorem posAfter_append (p : SourcePos) (as bs : List Token) :
    posAfter p (as ++ bs) = posAfter (posAfter p as) bs := by
  simp [posAfter]

/-- The tokens of chunks, with the positions they get. -/
def chunkToks (cs : List (List Token × SourcePos)) : List PTok :=
  cs.flatMap fun c => annotate c.2 c.1

theorem special_iff (t : Token) : t.backtickSpecial = true ↔
    t = .Backslash ∨ t = .Dollar ∨ t = .Backtick := by
  cases t <;> simp [Token.backtickSpecial]

theorem unescape_cons {x : PTok} (h : x.2 ≠ .Backslash) (xs : List PTok) :
    unescape (x :: xs) = x :: unescape xs := by
  cases xs with
  | nil => rfl
  | cons y xs => simp [unescape, h]

theorem contiguous_tail {x : PTok} {xs : List PTok} {e : SourcePos} (h : Contiguous (x :: xs) e) :
    Contiguous xs e ∧ (AIter.pos ⟨xs, e⟩) = x.1.advance x.2 := by
  cases xs with
  | nil => exact ⟨trivial, h.symm⟩
  | cons y xs => exact ⟨h.2, h.1.symm⟩

/-- The chunk loop, on a scanner that yields `xs` and then ends. -/
theorem chunkLoop_steps {e : SourcePos} {b' b'' : Balanced AIter} (h' : b'.next = (none, b''))
    (h'' : b''.next = (none, b'')) (n : Nat) : ∀ (xs : List PTok) (b : Balanced AIter) (cs chunk start),
    Balanced.Steps b xs b' → xs.length < n → Contiguous xs e →
    (chunk ≠ [] → posAfter start chunk = AIter.pos ⟨xs, e⟩) →
    (chunk = [] → start = AIter.pos ⟨xs, e⟩) →
    ∃ cs', chunkLoop n cs chunk start b = (.ok cs', b'') ∧
      chunkToks cs' = chunkToks cs ++ annotate start chunk ++ unescape xs := by
  induction n with
  | zero => intro xs b cs chunk start _ h; omega
  | succ n ih =>
    intro xs b cs chunk start hs hn hc hp1 hp2
    have hp : posAfter start chunk = AIter.pos ⟨xs, e⟩ := by
      cases chunk with
      | nil => exact hp2 rfl
      | cons _ _ => exact hp1 (by simp)
    have fin : ∀ chunk : List Token, chunkToks (if chunk.isEmpty then cs else cs ++ [(chunk, start)]) =
        chunkToks cs ++ annotate start chunk := by
      intro chunk; cases chunk <;> simp [chunkToks, annotate]
    cases hs with
    | nil =>
      refine ⟨if chunk.isEmpty then cs else cs ++ [(chunk, start)], ?_, ?_⟩
      · simp [chunkLoop, h']
      · rw [fin]; simp [unescape]
    | @cons _ b1 _ p t xs hpos hnext hs =>
      by_cases ht : t = .Backslash
      · subst ht
        cases hs with
        | nil =>
          cases n with
          | zero => simp at hn
          | succ n =>
            refine ⟨cs ++ [(chunk ++ [.Backslash], start)], ?_, ?_⟩
            · simp [chunkLoop, hnext, h', h'']
            · simp [chunkToks, annotate_append, annotate, unescape, hp]
              rfl
        | @cons _ b2 _ q u xs hpos2 hnext2 hs =>
          obtain ⟨hc1, hq⟩ := contiguous_tail hc
          obtain ⟨hc2, hr⟩ := contiguous_tail hc1
          change q = p.advance _ at hq
          change _ = q.advance u at hr
          have hp' : posAfter start chunk = p := hp
          by_cases hu : u.backtickSpecial = true
          · obtain ⟨cs', h1, h2⟩ := ih xs b2 (cs ++ [(chunk, start)]) [u] q hs (by simp at hn; omega)
              hc2 (fun _ => hr.symm) (by simp)
            refine ⟨cs', ?_, ?_⟩
            · rw [← h1]; simp [chunkLoop, hnext, hnext2, hu, hpos2]
            · rw [h2]
              simp [chunkToks, unescape, (special_iff u).1 hu, annotate]
          · obtain ⟨cs', h1, h2⟩ := ih xs b2 cs (chunk ++ [.Backslash, u]) start hs
              (by simp at hn; omega) hc2
              (fun _ => by rw [posAfter_append, hp', hr, hq]; rfl) (by simp)
            refine ⟨cs', ?_, ?_⟩
            · rw [← h1]; simp [chunkLoop, hnext, hnext2, hu]
            · have hu' : ¬ (u = .Backslash ∨ u = .Dollar ∨ u = .Backtick) := by
                rw [← special_iff]; exact hu
              rw [h2]
              simp [unescape, hu', annotate_append, annotate, hp', hq]
      · obtain ⟨hc1, hq⟩ := contiguous_tail hc
        have hp' : posAfter start chunk = p := hp
        obtain ⟨cs', h1, h2⟩ := ih xs b1 cs (chunk ++ [t]) start hs (by simp at hn; omega) hc1
          (fun _ => by rw [posAfter_append, hp', hq]; rfl) (by simp)
        refine ⟨cs', ?_, ?_⟩
        · rw [← h1]
          cases t <;> first | exact absurd rfl ht | simp [chunkLoop, hnext]
        · rw [h2, unescape_cons (by simpa using ht)]
          simp [annotate_append, annotate, hp']

/-- The chunk loop fails when the scanner does. -/
theorem chunkLoop_err {b' b'' : Balanced AIter} {err : UnmatchedError}
    (h' : b'.next = (some (.error err), b'')) (n : Nat) :
    ∀ (xs : List PTok) (b : Balanced AIter) (cs chunk start),
    Balanced.Steps b xs b' → xs.length < n →
    chunkLoop n cs chunk start b = (.unmatched err, b'') := by
  induction n with
  | zero => intro xs b cs chunk start _ h; omega
  | succ n ih =>
    intro xs b cs chunk start hs hn
    cases hs with
    | nil => simp [chunkLoop, h']
    | @cons _ b1 _ p t xs hpos hnext hs =>
      by_cases ht : t = .Backslash
      · subst ht
        cases hs with
        | nil => simp [chunkLoop, hnext, h']
        | @cons _ b2 _ q u xs hpos2 hnext2 hs =>
          by_cases hu : u.backtickSpecial = true
          · simp [chunkLoop, hnext, hnext2, hu]
            exact ih _ _ _ _ _ hs (by simp at hn; omega)
          · simp [chunkLoop, hnext, hnext2, hu]
            exact ih _ _ _ _ _ hs (by simp at hn; omega)
      · have := ih xs b1 cs (chunk ++ [t]) start hs (by simp at hn; omega)
        rw [← this]
        cases t <;> first | exact absurd rfl ht | simp [chunkLoop, hnext]

theorem foldr_buffer (cs : List (List Token × SourcePos)) (p : SourcePos) :
    cs.foldr (fun c it => TokStream.bufferFirst it c.1 c.2) (TokStream.withPosition (I := AIter) p) =
      ⟨chunkToks cs, p⟩ := by
  induction cs with
  | nil => rfl
  | cons c cs ih =>
    rw [List.foldr_cons, ih]; simp [chunkToks]; rfl

/-- The lazy remover, on a scanner that yields `xs` and then ends. -/
theorem remover_steps {b' b'' : Balanced AIter} (h' : b'.next = (none, b'')) (n : Nat) :
    ∀ (xs : List PTok) (b : Balanced AIter), Balanced.Steps b xs b' → xs.length < n →
    ∃ r, (BacktickRemover.mk b none false).collectN n = (.ok ((unescape xs).map (·.2)), r) ∧
      r.iter = b'' := by
  induction n using Nat.strongRecOn with
  | ind n ih =>
    intro xs b hs hn
    obtain ⟨n, rfl⟩ : ∃ m, n = m + 1 := ⟨n - 1, by omega⟩
    cases hs with
    | nil => exact ⟨⟨b'', none, true⟩, by simp [BacktickRemover.collectN, BacktickRemover.next, h', unescape], rfl⟩
    | @cons _ b1 _ p t xs hpos hnext hs =>
      by_cases ht : t = .Backslash
      · subst ht
        cases hs with
        | nil =>
          obtain ⟨n, rfl⟩ : ∃ m, n = m + 1 := ⟨n - 1, by simp at hn; omega⟩
          exact ⟨⟨b'', none, true⟩, by simp [BacktickRemover.collectN, BacktickRemover.next, hnext, h', unescape], rfl⟩
        | @cons _ b2 _ q u xs hpos2 hnext2 hs =>
          simp at hn
          by_cases hu : u.backtickSpecial = true
          · obtain ⟨r, h1, h2⟩ := ih n (by omega) xs b2 hs (by omega)
            refine ⟨r, ?_, h2⟩
            simp [BacktickRemover.collectN, BacktickRemover.next, hnext, hnext2, hu, h1, unescape,
              (special_iff u).1 hu]
          · obtain ⟨n, rfl⟩ : ∃ m, n = m + 1 := ⟨n - 1, by omega⟩
            obtain ⟨r, h1, h2⟩ := ih n (by omega) xs b2 hs (by omega)
            refine ⟨r, ?_, h2⟩
            have hu' : ¬ (u = .Backslash ∨ u = .Dollar ∨ u = .Backtick) := by
              rw [← special_iff]; exact hu
            simp [BacktickRemover.collectN, BacktickRemover.next, hnext, hnext2, hu, h1, unescape, hu']
      · obtain ⟨r, h1, h2⟩ := ih n (by omega) xs b1 hs (by simp at hn; omega)
        refine ⟨r, ?_, h2⟩
        rw [unescape_cons (by simpa using ht)]
        cases t <;> first
          | exact absurd rfl ht
          | simp [BacktickRemover.collectN, BacktickRemover.next, hnext, h1]

theorem remover_err {b' b'' : Balanced AIter} {err : UnmatchedError}
    (h' : b'.next = (some (.error err), b'')) (n : Nat) :
    ∀ (xs : List PTok) (b : Balanced AIter), Balanced.Steps b xs b' → xs.length < n →
    ((BacktickRemover.mk b none false).collectN n).1 = .unmatched err ∧
      ((BacktickRemover.mk b none false).collectN n).2.iter = b'' := by
  induction n using Nat.strongRecOn with
  | ind n ih =>
    intro xs b hs hn
    obtain ⟨n, rfl⟩ : ∃ m, n = m + 1 := ⟨n - 1, by omega⟩
    cases hs with
    | nil => simp [BacktickRemover.collectN, BacktickRemover.next, h']
    | @cons _ b1 _ p t xs hpos hnext hs =>
      by_cases ht : t = .Backslash
      · subst ht
        cases hs with
        | nil =>
          obtain ⟨n, rfl⟩ : ∃ m, n = m + 1 := ⟨n - 1, by simp at hn; omega⟩
          simp [BacktickRemover.collectN, BacktickRemover.next, hnext, h']
        | @cons _ b2 _ q u xs hpos2 hnext2 hs =>
          simp at hn
          by_cases hu : u.backtickSpecial = true
          · have h1 := ih n (by omega) xs b2 hs (by omega)
            simp only [BacktickRemover.collectN, BacktickRemover.next, hnext, hnext2, hu, if_true,
              Bool.false_eq_true, if_false]
            generalize BacktickRemover.collectN (I := AIter) n _ = z at h1
            obtain ⟨z, r⟩ := z
            simp only at h1
            rw [h1.1]; exact ⟨rfl, h1.2⟩
          · obtain ⟨n, rfl⟩ : ∃ m, n = m + 1 := ⟨n - 1, by omega⟩
            have h1 := ih n (by omega) xs b2 hs (by omega)
            simp only [BacktickRemover.collectN, BacktickRemover.next, hnext, hnext2, hu,
              Bool.false_eq_true, if_false]
            generalize BacktickRemover.collectN (I := AIter) n _ = z at h1
            obtain ⟨z, r⟩ := z
            simp only at h1
            rw [h1.1]; exact ⟨rfl, h1.2⟩
      · have h1 := ih n (by omega) xs b1 hs (by simp at hn; omega)
        cases t <;> first
          | exact absurd rfl ht
          | (simp only [BacktickRemover.collectN, BacktickRemover.next, hnext,
              Bool.false_eq_true, if_false]
             generalize BacktickRemover.collectN (I := AIter) n _ = z at h1
             obtain ⟨z, r⟩ := z
             simp only at h1
             rw [h1.1]; exact ⟨rfl, h1.2⟩)

theorem subIter_closed {xs : List PTok} (hb : Body .Backtick xs) (p q : SourcePos)
    (ys : List PTok) (e : SourcePos) (hc : Contiguous xs q) :
    tokenIterFromBackticked (⟨xs ++ (q, .Backtick) :: ys, e⟩ : AIter) p =
      (.ok ⟨unescape xs, AIter.pos ⟨ys, e⟩⟩, ⟨ys, e⟩) := by
  unfold tokenIterFromBackticked createTokenIter backticked
  rw [Balanced.new_delim]
  obtain ⟨cs, h1, h2⟩ := chunkLoop_steps
    (b'' := { Balanced.mk' true [] ys e with done := true }) (e := q)
    (by rw [Balanced.next_close]; rfl) (by exact Balanced.next_done _ rfl rfl)
    ((xs ++ (q, .Backtick) :: ys).length + 2) xs _ [] []
    (AIter.pos ⟨xs ++ (q, .Backtick) :: ys, e⟩)
    (Balanced.body_steps hb (by simp [Closer]) true p [] ((q, .Backtick) :: ys) e (by simp))
    (by simp; omega) hc (by simp) (fun _ => by cases xs <;> rfl)
  rw [show TokStream.len (Balanced.mk' true [(Token.Backtick, p)] (xs ++ (q, Token.Backtick) :: ys) e).iter
    = (xs ++ (q, Token.Backtick) :: ys).length from rfl,
    show (Balanced.mk' true [(Token.Backtick, p)] (xs ++ (q, Token.Backtick) :: ys) e).pos =
      (AIter.pos ⟨xs ++ (q, .Backtick) :: ys, e⟩) from rfl, h1]
  simp only
  rw [foldr_buffer, h2]
  simp [chunkToks, annotate]
  exact ⟨rfl, rfl⟩

theorem subIter_unclosed {l : List PTok} {p : SourcePos} {err : UnmatchedError}
    (hu : Unclosed .Backtick p l err) (e : SourcePos) :
    tokenIterFromBackticked (⟨l, e⟩ : AIter) p = (.unmatched err, ⟨[], e⟩) := by
  obtain ⟨b, b', h1, h2, h3⟩ := Balanced.unclosed_steps hu (by simp [Closer]) true [] e
  unfold tokenIterFromBackticked createTokenIter backticked
  rw [Balanced.new_delim, chunkLoop_err h2 _ _ _ _ _ _ h1 (by simp [Balanced.mk'])]
  simp [h3]

/-- C11: the sub-stream parsed for a backtick body on the code's stream holds exactly the body's
tokens without the backslashes that precede `\`, `$` or a backtick, each at the position it has in
the outer stream; the outer stream continues after the closing backtick. (`Contiguous`: each token
of the body starts where the one before it ends, see `C11_positions_recounted` for the other
case.) -/
theorem C11_substream (it : CIter) (p q : SourcePos) (xs ys : List PTok)
    (h : it.1.abs.rest = xs ++ (q, .Backtick) :: ys) (hb : Body .Backtick xs)
    (hc : Contiguous xs q) :
    ∃ sub : CIter, (tokenIterFromBackticked it p).1 = .ok sub ∧ sub.1.abs.rest = unescape xs ∧
      (tokenIterFromBackticked it p).2.1.abs = ⟨ys, it.1.abs.endPos⟩ := by
  obtain ⟨s1, s2⟩ := cSim.tokenIterFromBackticked (i := it) (j := it.1.abs) rfl p
  have key := subIter_closed hb p q ys it.1.abs.endPos hc
  rw [← h] at key
  change tokenIterFromBackticked it.1.abs p = _ at key
  rw [key] at s1 s2
  generalize tokenIterFromBackticked it p = z at s1 s2
  obtain ⟨z1, z2⟩ := z
  simp only at s1 s2
  cases s1 with
  | @ok sub _ hsub =>
    change sub.1.abs = _ at hsub
    exact ⟨sub, rfl, by rw [hsub], s2⟩

/-- C11: an unclosed body is reported with the innermost open region. -/
theorem C11_unclosed (it : CIter) (p : SourcePos) (err : UnmatchedError)
    (h : Unclosed .Backtick p it.1.abs.rest err) :
    (tokenIterFromBackticked it p).1 = .unmatched err := by
  obtain ⟨s1, s2⟩ := cSim.tokenIterFromBackticked (i := it) (j := it.1.abs) rfl p
  have key := subIter_unclosed h it.1.abs.endPos
  change tokenIterFromBackticked it.1.abs p = _ at key
  rw [key] at s1
  generalize tokenIterFromBackticked it p = z at s1
  obtain ⟨z1, z2⟩ := z
  simp only at s1
  cases s1; rfl

/-- C11: the lazy unescaping iterator yields the same tokens and leaves the same stream. -/
theorem C11_lazy_remover (it : CIter) (p q : SourcePos) (xs ys : List PTok)
    (h : it.1.abs.rest = xs ++ (q, .Backtick) :: ys) (hb : Body .Backtick xs) :
    (takeBacktickedRemoved it p).1 = .ok ((unescape xs).map (·.2)) ∧
      (takeBacktickedRemoved it p).2.1.abs = ⟨ys, it.1.abs.endPos⟩ := by
  obtain ⟨s1, s2⟩ := cSim.takeBacktickedRemoved (i := it) (j := it.1.abs) rfl p
  change _ = (takeBacktickedRemoved it.1.abs p).2 at s2
  rw [s1, s2]
  generalize it.1.abs = a at h
  obtain ⟨l, e⟩ := a
  simp only at h
  subst h
  obtain ⟨r, h1, h2⟩ := remover_steps
    (b'' := { Balanced.mk' true [] ys e with done := true })
    (by rw [Balanced.next_close]; rfl) ((xs ++ (q, .Backtick) :: ys).length + 2) xs _
    (Balanced.body_steps hb (by simp [Closer]) true p [] ((q, .Backtick) :: ys) e (by simp))
    (by simp; omega)
  have : takeBacktickedRemoved (⟨xs ++ (q, .Backtick) :: ys, e⟩ : AIter) p =
      (.ok ((unescape xs).map (·.2)), ⟨ys, e⟩) := by
    unfold takeBacktickedRemoved BacktickRemover.collect BacktickRemover.new backticked
    rw [Balanced.new_delim]
    rw [show TokStream.len (BacktickRemover.mk (Balanced.mk' true [(Token.Backtick, p)]
      (xs ++ (q, Token.Backtick) :: ys) e) none false).iter.iter =
      (xs ++ (q, Token.Backtick) :: ys).length from rfl, h1]
    simp [h2, Balanced.mk']
  rw [this]
  exact ⟨rfl, rfl⟩

/-- C11: …and the same error. -/
theorem C11_lazy_remover_unclosed (it : CIter) (p : SourcePos) (err : UnmatchedError)
    (h : Unclosed .Backtick p it.1.abs.rest err) :
    (takeBacktickedRemoved it p).1 = .unmatched err := by
  obtain ⟨s1, s2⟩ := cSim.takeBacktickedRemoved (i := it) (j := it.1.abs) rfl p
  rw [s1]
  generalize it.1.abs = a at h
  obtain ⟨l, e⟩ := a
  obtain ⟨b, b', h1, h2, h3⟩ := Balanced.unclosed_steps h (by simp [Closer]) true [] e
  exact (remover_err h2 (l.length + 2) _ _ h1 (by simp)).1

/-- Tokens as they come from the source are contiguous. -/
theorem annotate_contiguous (p : SourcePos) (ts : List Token) :
    Contiguous (annotate p ts) (posAfter p ts) := by
  induction ts generalizing p with
  | nil => trivial
  | cons t ts ih =>
    cases ts with
    | nil => rfl
    | cons u ts => exact ⟨rfl, ih (p.advance t)⟩

example : unescape (annotate .new [.Name ['a'], .Backslash, .Backtick, .Backslash, .Name ['b']]) =
    [(⟨0, 1, 1⟩, .Name ['a']), (⟨2, 1, 3⟩, .Backtick), (⟨3, 1, 4⟩, .Backslash),
      (⟨4, 1, 5⟩, .Name ['b'])] := by decide

/-- Where the hypothesis `Contiguous` fails (a stream from which backslashes were removed already:
nested backticks), a token can get a wrong position: here `$` sits at byte 2, behind a removed
backslash at byte 1, and is re-counted to byte 1. -/
theorem C11_positions_recounted :
    let x : List PTok := [(⟨0, 1, 1⟩, .Name ['a']), (⟨2, 1, 3⟩, .Dollar)]
    tokenIterFromBackticked (⟨x ++ [(⟨3, 1, 4⟩, .Backtick)], ⟨4, 1, 5⟩⟩ : AIter) .new =
      (.ok ⟨[(⟨0, 1, 1⟩, .Name ['a']), (⟨1, 1, 2⟩, .Dollar)], ⟨4, 1, 5⟩⟩, ⟨[], ⟨4, 1, 5⟩⟩) := by
  rfl

end Conch
