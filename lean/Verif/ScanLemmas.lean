import Verif.PropsBalanced
/-!
# More about scans: token counts and positions of errors
-/
namespace Conch
open Spec

theorem unescape_length (xs : List PTok) : (unescape xs).length ≤ xs.length := by
  match xs with
  | [] => simp [unescape]
  | [x] => simp [unescape]
  | x :: y :: r =>
    have h1 := unescape_length r
    have h2 := unescape_length (y :: r)
    unfold unescape
    split
    · split
      · simp; omega
      · simp; omega
    · simp at h2 ⊢; omega
termination_by xs.length

theorem annotate_toks (p : SourcePos) (ts : List Token) : (annotate p ts).map (·.2) = ts := by
  induction ts generalizing p with
  | nil => rfl
  | cons t ts ih => simp [annotate, ih]

/-- The chunk loop keeps the tokens, whatever the positions. -/
theorem chunkLoop_toks {b' b'' : Balanced AIter} (h' : b'.next = (none, b''))
    (h'' : b''.next = (none, b'')) (n : Nat) : ∀ (xs : List PTok) (b : Balanced AIter) (cs chunk start),
    Balanced.Steps b xs b' → xs.length < n →
    ∃ cs', chunkLoop n cs chunk start b = (.ok cs', b'') ∧
      cs'.flatMap (·.1) = cs.flatMap (·.1) ++ chunk ++ (unescape xs).map (·.2) := by
  induction n with
  | zero => intro xs b cs chunk start _ h; omega
  | succ n ih =>
    intro xs b cs chunk start hs hn
    cases hs with
    | nil =>
      refine ⟨if chunk.isEmpty then cs else cs ++ [(chunk, start)], ?_, ?_⟩
      · simp [chunkLoop, h']
      · cases chunk <;> simp [unescape]
    | @cons _ b1 _ p t xs hpos hnext hs =>
      by_cases ht : t = .Backslash
      · subst ht
        cases hs with
        | nil =>
          cases n with
          | zero => simp at hn
          | succ n =>
            refine ⟨cs ++ [(chunk ++ [.Backslash], start)], ?_, ?_⟩
            · simp [chunkLoop, hnext, h', h'']
            · simp [unescape]
        | @cons _ b2 _ q u xs hpos2 hnext2 hs =>
          by_cases hu : u.backtickSpecial = true
          · obtain ⟨cs', h1, h2⟩ := ih xs b2 (cs ++ [(chunk, start)]) [u] q hs (by simp at hn; omega)
            refine ⟨cs', ?_, ?_⟩
            · rw [← h1]; simp [chunkLoop, hnext, hnext2, hu, hpos2]
            · rw [h2]
              simp [unescape, (special_iff u).1 hu]
          · obtain ⟨cs', h1, h2⟩ := ih xs b2 cs (chunk ++ [.Backslash, u]) start hs
              (by simp at hn; omega)
            refine ⟨cs', ?_, ?_⟩
            · rw [← h1]; simp [chunkLoop, hnext, hnext2, hu]
            · have hu' : ¬ (u = .Backslash ∨ u = .Dollar ∨ u = .Backtick) := by
                rw [← special_iff]; exact hu
              rw [h2]
              simp [unescape, hu']
      · obtain ⟨cs', h1, h2⟩ := ih xs b1 cs (chunk ++ [t]) start hs (by simp at hn; omega)
        refine ⟨cs', ?_, ?_⟩
        · rw [← h1]
          cases t <;> first | exact absurd rfl ht | simp [chunkLoop, hnext]
        · rw [h2, unescape_cons (by simpa using ht)]
          simp

/-- The sub-stream of a closed backtick region holds the unescaped tokens. -/
theorem subIter_toks {xs : List PTok} (hb : Body .Backtick xs) (p q : SourcePos)
    (ys : List PTok) (e : SourcePos) :
    ∃ sub : AIter, tokenIterFromBackticked (⟨xs ++ (q, .Backtick) :: ys, e⟩ : AIter) p =
      (.ok sub, ⟨ys, e⟩) ∧ sub.toks = (unescape xs).map (·.2) := by
  unfold tokenIterFromBackticked createTokenIter backticked
  rw [Balanced.new_delim]
  obtain ⟨cs, h1, h2⟩ := chunkLoop_toks
    (b'' := { Balanced.mk' true [] ys e with done := true })
    (by rw [Balanced.next_close]; rfl)
    (Balanced.next_done _ rfl rfl)
    ((xs ++ (q, Token.Backtick) :: ys).length + 2) xs _ []
    [] (Balanced.mk' true [(.Backtick, p)] (xs ++ (q, .Backtick) :: ys) e).pos
    (Balanced.body_steps hb (by simp [Closer]) true p [] ((q, .Backtick) :: ys) e (by simp))
    (by simp; omega)
  rw [show TokStream.len (Balanced.mk' true [(Token.Backtick, p)]
    (xs ++ (q, Token.Backtick) :: ys) e).iter + 2 = (xs ++ (q, Token.Backtick) :: ys).length + 2 from rfl, h1]
  refine ⟨_, rfl, ?_⟩
  rw [foldr_buffer]
  simp at h2
  unfold AIter.toks
  rw [← h2]
  show (chunkToks cs).map _ = _
  clear h1 h2
  induction cs with
  | nil => rfl
  | cons c cs ih =>
    simp only [chunkToks, List.flatMap_cons, List.map_append] at ih ⊢
    rw [ih, annotate_toks]

theorem opens_opener {x : Option Token} {o c : Token} (h : Opens x o c) : opener c = o := by
  cases h <;> rfl

/-- An error of a scan is about the given opening token, or names one in the list. -/
theorem unclosed_at {c : Token} {p : SourcePos} {l : List PTok} {e : UnmatchedError}
    (h : Unclosed c p l e) : e = ⟨opener c, p⟩ ∨ (e.pos, e.tok) ∈ l := by
  induction h with
  | here _ => exact .inl rfl
  | backslash _ _ => exact .inl rfl
  | inner _ _ _ ho _ ih =>
    rcases ih with rfl | ih <;> right
    · rw [opens_opener ho]; simp
    · simp [ih]
  | innerBrace _ _ _ ih =>
    rcases ih with rfl | ih <;> right
    · simp [opener]
    · simp [ih]

theorem topUnclosed_at {l : List PTok} {e : UnmatchedError}
    (h : TopUnclosed l e) : (e.pos, e.tok) ∈ l := by
  cases h with
  | inner ho h =>
    rcases unclosed_at h with rfl | ih
    · rw [opens_opener ho]; simp
    · simp [ih]
  | innerBrace h => rcases unclosed_at h with rfl | ih <;> simp_all [opener]
  | innerParen h => rcases unclosed_at h with rfl | ih <;> simp_all [opener]

end Conch
