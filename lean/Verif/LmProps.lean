import Verif.LmLemmas

/-! # Properties of language model lookup (C13 – C16) -/

namespace Verif.Fst

open Verif

variable {W : Type}

/-- **C13.**  Word lookup in a backoff language model.  Along any finite backoff chain for `w` from state
`s` to a state `e` with an arc for `w`, the result is that arc with the backoff weights added innermost
first; if the chain ends in a state with neither an arc for `w` nor a backoff arc, the result is `false`.
The number of recursive calls needed is the length of the chain. -/
theorem C13_backoff_lookup (o : FloatOps W) (t : Transducer W) (h : IsLm t) (w : Int) (hw : w ≠ 0)
    (s e : Nat) (bs : List (Arc W)) (hc : Chain t w s bs e) :
    ∃ f, convert t = .ok f ∧ ∀ fuel, bs.length < fuel →
      (∀ a, firstArc t e w = some a →
        lmGetArc o f [] fuel s w = .ok (some { a with weight := backedWeight o bs a.weight })) ∧
      (e < t.states.length → firstArc t e w = none → firstArc t e 0 = none →
        lmGetArc o f [] fuel s w = .ok none) := by
  refine ⟨_, convert_layout t, fun fuel hf => ⟨?_, ?_⟩⟩
  · intro a ha
    exact lmGetArc_chain_some h hw hc ha fuel hf
  · intro he h1 h2
    exact lmGetArc_chain_none h hw hc he h1 h2 fuel hf

/-- **C13, final weights.**  The final weight of a state is that of the first state along the backoff
chain with a finite one, with the backoff weights added innermost first. -/
theorem C13_backoff_final (o : FloatOps W) (t : Transducer W) (h : IsLm t) (s e : Nat)
    (bs : List (Arc W)) (hc : FChain o t s bs e) (w : W) (hw : finalOf t e = some w)
    (hend : o.finite w = true ∨ firstArc t e 0 = none) :
    ∃ f, convert t = .ok f ∧ ∀ fuel, bs.length < fuel →
      lmFinal o f fuel s = .ok (backedFinal o bs (if o.finite w then w else o.inf)) :=
  ⟨_, convert_layout t, fun fuel hf => lmFinal_chain h hc hw hend fuel hf⟩

/-- Integer weights for examples; 1000 and above count as infinite. -/
def exOps : FloatOps Int := ⟨(· + ·), (· - ·), (· < 1000), 1000⟩

/-- A trigram-like model: state 2 backs off to 1, 1 to 0; words 7, 8 at state 0. -/
def exLm : Transducer Int :=
  ⟨2, [(5, [⟨1, 8, 8, 20⟩, ⟨1, 7, 7, 10⟩]), (1000, [⟨0, 0, 0, 3⟩, ⟨2, 9, 9, 1⟩]), (1000, [⟨1, 0, 0, 4⟩])]⟩

/-- The hypotheses of C13 are met with a chain of length two … -/
example : IsLm exLm ∧ Chain exLm 7 2 [⟨1, 0, 0, 4⟩, ⟨0, 0, 0, 3⟩] 0 ∧
    firstArc exLm 0 7 = some ⟨1, 7, 7, 10⟩ ∧
    backedWeight exOps [⟨1, 0, 0, 4⟩, ⟨0, 0, 0, 3⟩] 10 = 17 := by
  refine ⟨⟨by decide, by decide⟩, ?_, by decide, by decide⟩
  exact .step (s' := 1) (by decide) (by decide) rfl
    (.step (s' := 0) (by decide) (by decide) rfl (.here 0))

/-- … and of the statement about final weights. -/
example : FChain exOps exLm 2 [⟨1, 0, 0, 4⟩, ⟨0, 0, 0, 3⟩] 0 ∧ finalOf exLm 0 = some 5 ∧
    exOps.finite 5 = true ∧ backedFinal exOps [⟨1, 0, 0, 4⟩, ⟨0, 0, 0, 3⟩] 5 = 12 := by
  refine ⟨?_, by decide, by decide, by decide⟩
  exact .step (s' := 1) (w := 1000) (by decide) (by decide) (by decide) rfl
    (.step (s' := 0) (w := 1000) (by decide) (by decide) (by decide) rfl (.here 0))

/-- **C13, limit.**  The chain must be finite: if every state has a backoff arc to a state of the model
and none has an arc for `w`, the lookup never returns, however deep the recursion. -/
theorem C13_backoff_cycle_never_returns (o : FloatOps W) (t : Transducer W) (h : IsLm t) (w : Int)
    (hw : w ≠ 0) (hno : ∀ s : Nat, firstArc t s w = none)
    (hcyc : ∀ s : Nat, s < t.states.length →
      ∃ b, firstArc t s 0 = some b ∧ ∃ s' : Nat, b.next = (s' : Int) ∧ s' < t.states.length)
    (fuel s : Nat) (hs : s < t.states.length) :
    ∃ f, convert t = .ok f ∧ lmGetArc o f [] fuel s w = .error .fuel := by
  refine ⟨_, convert_layout t, ?_⟩
  induction fuel generalizing s with
  | zero => rfl
  | succ fuel ih =>
    obtain ⟨b, hb, s', hn, hs'⟩ := hcyc s hs
    rw [lmGetArc_step h hs hw, hno s, hb]
    simp only
    rw [hn, ih s' hs']
    rfl

/-- Such a model: two states backing off to each other. -/
example : let t : Transducer Int := ⟨0, [(1, [⟨1, 0, 0, 3⟩]), (1, [⟨0, 0, 0, 3⟩])]⟩
    IsLm t ∧ (∀ s : Nat, firstArc t s 7 = none) ∧ (∀ s : Nat, s < t.states.length →
      ∃ b, firstArc t s 0 = some b ∧ ∃ s' : Nat, b.next = (s' : Int) ∧ s' < t.states.length) := by
  refine ⟨⟨by decide, by decide⟩, ?_, ?_⟩
  · intro s
    match s with
    | 0 => decide
    | 1 => decide
    | s + 2 => rfl
  · intro s hs
    match s with
    | 0 => exact ⟨⟨1, 0, 0, 3⟩, by decide, 1, rfl, by decide⟩
    | 1 => exact ⟨⟨0, 0, 0, 3⟩, by decide, 0, rfl, by decide⟩
    | s + 2 => exact absurd hs (by simp)

/-- **C14.**  The direct-indexed table for state 0 is transparent: it can be built, and with it every
lookup (from any state, for any label, at any recursion depth) gives the same result as without it. -/
theorem C14_unigram_table_transparent (o : FloatOps W) (t : Transducer W) (h : IsLm t)
    (hu : UnigramState t) :
    ∃ f b, convert t = .ok f ∧ initBucket0 f = .ok b ∧
      ∀ (fuel : Nat) (s w : Int), lmGetArc o f b fuel s w = lmGetArc o f [] fuel s w := by
  obtain ⟨b, h1, h2⟩ := initBucket0_ok h hu
  exact ⟨_, b, convert_layout t, h1, fun fuel s w => lmGetArc_bucket h hu h2 fuel s w⟩

/-- The hypotheses of C14 hold of the example model. -/
example : IsLm exLm ∧ UnigramState exLm := by
  refine ⟨⟨by decide, by decide⟩, ⟨by decide, ?_, ?_⟩⟩
  · intro x as h
    simp only [exLm, List.getElem?_cons_zero, Option.some.injEq, Prod.mk.injEq] at h
    rw [← h.2]; decide
  · intro x as h
    simp only [exLm, List.getElem?_cons_zero, Option.some.injEq, Prod.mk.injEq] at h
    rw [← h.2]; decide

/-- The table is actually used: it holds an arc. -/
example : (convert exLm).bind (fun f => (initBucket0 f).bind (fun b => bucketHit b 0 8))
    = .ok (some ⟨1, 8, 8, 20⟩) := by decide +kernel

/-- **C14, limit.**  With two arcs for the same word at state 0 the table returns the last of them and
the search the first: distinctness is needed. -/
theorem C14_duplicate_labels_differ :
    let t : Transducer Int := ⟨0, [(5, [⟨0, 8, 8, 20⟩, ⟨0, 8, 8, 30⟩])]⟩
    ∃ f b, convert t = .ok f ∧ initBucket0 f = .ok b ∧
      lmGetArc exOps f b 1 0 8 = .ok (some ⟨0, 8, 8, 30⟩) ∧
      lmGetArc exOps f [] 1 0 8 = .ok (some ⟨0, 8, 8, 20⟩) := by
  refine ⟨_, _, rfl, rfl, ?_, ?_⟩ <;> decide +kernel

/-- Queries issued one after the other through the cache, starting from cache contents `c`. -/
def cachedRun (fst : IFst W) : Cache W → List (Int × Int) → Exec (List (Option (Arc W)))
  | _, [] => .ok []
  | c, (s, l) :: qs => do
    let (r, c) ← cachedGetArc fst c s l
    let rs ← cachedRun fst c qs
    .ok (r :: rs)

/-- The same queries asked of the FST directly. -/
def plainRun (fst : IFst W) : List (Int × Int) → Exec (List (Option (Arc W)))
  | [] => .ok []
  | (s, l) :: qs => do
    let r ← fst.getArc s l
    let rs ← plainRun fst qs
    .ok (r :: rs)

/-- The `int32_t` hash of the query does not overflow, and the state is not the "empty" marker. -/
def Hashable (s l : Int) : Prop :=
  s ≠ -1 ∧ InI32 (589 + s) ∧ InI32 ((589 + s) * 31) ∧ InI32 ((589 + s) * 31 + l)

/-- **C15.**  The arc cache is transparent: any sequence of queries through a new cache of any positive
size gives exactly the results (and faults) of the underlying FST, whatever collides, provided the FST
returns arcs carrying the queried label. -/
theorem C15_cache_transparent (fst : IFst W)
    (hlab : ∀ s l a, fst.getArc s l = .ok (some a) → a.ilabel = l)
    (n : Nat) (hn : 0 < n) (qs : List (Int × Int)) (hq : ∀ q ∈ qs, Hashable q.1 q.2) :
    cachedRun fst (newCache n) qs = plainRun fst qs := by
  have key : ∀ (qs : List (Int × Int)) (c : Cache W), CacheInv fst c → c.length = n →
      (∀ q ∈ qs, Hashable q.1 q.2) → cachedRun fst c qs = plainRun fst qs := by
    intro qs
    induction qs with
    | nil => intros; rfl
    | cons q qs ih =>
      intro c hinv hlen hq
      obtain ⟨s, l⟩ := q
      obtain ⟨h0, h1, h2, h3⟩ := hq (s, l) (by simp)
      unfold cachedRun plainRun
      rcases cachedGetArc_spec hlab hinv (by intro hc; rw [hc] at hlen; simp at hlen; omega) h0 h1 h2 h3
        with ⟨r, c', e1, e2, e3, e4⟩ | ⟨e, e1, e2⟩
      · rw [e1, e2, ok_bind, ok_bind]
        simp only
        rw [ih c' e3 (by omega) (fun q hq' => hq q (by simp [hq']))]
      · rw [e1, e2]; rfl
  exact key qs (newCache n) (newCache_inv fst n) (by simp [newCache]) hq

/-- **C15 for the FST the decoder caches**: the delta LM over the backoff LM needs no further
hypothesis. -/
theorem C15_cached_delta_lm (o : FloatOps W) (f : Fst W) (bucket : List (Option (Arc W))) (fuel : Nat)
    (smallLm : List W) (bos eos : Int) (n : Nat) (hn : 0 < n) (qs : List (Int × Int))
    (hq : ∀ q ∈ qs, Hashable q.1 q.2) :
    cachedRun (delta o smallLm (lmFst o f bucket fuel) bos eos) (newCache n) qs
      = plainRun (delta o smallLm (lmFst o f bucket fuel) bos eos) qs :=
  C15_cache_transparent _
    (delta_label (fun s l a h => lmGetArc_label fuel s l a h)) n hn qs hq

/-- Queries that collide in a cache of size one, hit, miss and ask for an absent word. -/
example : (∀ q ∈ [((2 : Int), (7 : Int)), (1, 9), (2, 7), (2, 7), (1, 3), (0, 8)], Hashable q.1 q.2) ∧
    (convert exLm).bind (fun f => cachedRun (lmFst exOps f [] 5) (newCache 1)
      [(2, 7), (1, 9), (2, 7), (2, 7), (1, 3), (0, 8)])
    = .ok [some ⟨1, 7, 7, 17⟩, some ⟨2, 9, 9, 1⟩, some ⟨1, 7, 7, 17⟩, some ⟨1, 7, 7, 17⟩, none,
        some ⟨1, 8, 8, 20⟩] := by
  constructor
  · unfold Hashable; decide
  · decide +kernel

/-- **C15, limit.**  The hash is computed in `int32_t` and overflows, which is undefined, for a state
number of 70 000 000. -/
theorem C15_hash_overflows (fst : IFst W) (n : Nat) :
    cachedGetArc fst (newCache n) 70000000 1 = .error .ub := by
  unfold cachedGetArc
  rw [if_neg (by decide)]
  rfl

/-- **C16.**  The delta LM: for a word `w` whose backoff chain from `s` ends in an arc `a`, the arc
returned has the destination of `a` and as weight the backed-off weight minus the small LM's score of
`w`; the result is `false` exactly when the big LM has none. -/
theorem C16_delta_score (o : FloatOps W) (t : Transducer W) (h : IsLm t) (hu : UnigramState t)
    (smallLm : List W) (bos eos w : Int) (hw : 0 < w) (u : W) (hsm : smallLm[w.toNat]? = some u)
    (s e : Nat) (bs : List (Arc W)) (hc : Chain t w s bs e) :
    ∃ f b, convert t = .ok f ∧ initBucket0 f = .ok b ∧ ∀ fuel, bs.length < fuel →
      (∀ a, firstArc t e w = some a →
        (delta o smallLm (lmFst o f b fuel) bos eos).getArc s w
          = .ok (some { a with weight := o.sub (backedWeight o bs a.weight) u })) ∧
      (e < t.states.length → firstArc t e w = none → firstArc t e 0 = none →
        (delta o smallLm (lmFst o f b fuel) bos eos).getArc s w = .ok none) := by
  obtain ⟨f, b, h1, h2, h3⟩ := C14_unigram_table_transparent o t h hu
  obtain ⟨f', h1', h4⟩ := C13_backoff_lookup o t h w (by omega) s e bs hc
  rw [h1] at h1'
  cases h1'
  have hlt := (List.getElem?_eq_some_iff.mp hsm).1
  refine ⟨f, b, h1, h2, fun fuel hf => ⟨?_, ?_⟩⟩
  · intro a ha
    have e1 := (h4 fuel hf).1 a ha
    rw [← h3] at e1
    have e2 : small smallLm w = .ok u := by
      unfold small
      rw [show decide (w < smallLm.length) = true by simp; omega, cassert_true, ok_bind]
      exact aget_of (by omega) hsm
    unfold delta lmFst
    simp only
    rw [e1, ok_bind]
    simp only
    rw [e2, ok_bind]
  · intro he g1 g2
    have e1 := (h4 fuel hf).2 he g1 g2
    rw [← h3] at e1
    unfold delta lmFst
    simp only
    rw [e1, ok_bind]

/-- **C16, start state.**  The start state is the one the arc for `<s>` leads to from the big LM's start
state (backing off if needed). -/
theorem C16_delta_start (o : FloatOps W) (t : Transducer W) (h : IsLm t) (hu : UnigramState t)
    (smallLm : List W) (bos eos : Int) (hb : bos ≠ 0) (s e : Nat) (hs : t.start = (s : Int))
    (bs : List (Arc W)) (hc : Chain t bos s bs e) (a : Arc W) (ha : firstArc t e bos = some a) :
    ∃ f b, convert t = .ok f ∧ initBucket0 f = .ok b ∧ ∀ fuel, bs.length < fuel →
      (delta o smallLm (lmFst o f b fuel) bos eos).start = .ok a.next := by
  obtain ⟨f, b, h1, h2, h3⟩ := C14_unigram_table_transparent o t h hu
  obtain ⟨f', h1', h4⟩ := C13_backoff_lookup o t h bos hb s e bs hc
  rw [h1] at h1'
  cases h1'
  refine ⟨f, b, h1, h2, fun fuel hf => ?_⟩
  have e1 := (h4 fuel hf).1 a ha
  rw [← h3] at e1
  have e0 : f.start = (s : Int) := by
    rw [convert_layout] at h1
    cases h1
    exact hs
  unfold delta lmFst
  simp only
  rw [ok_bind, e0, e1, ok_bind]

/-- **C16, final weight.**  The final weight of state `s`: follow `</s>` (backing off) to a state `d`,
add the backed-off weight of that arc to the backed-off final weight of `d`, and subtract the small LM's
score of `</s>`. -/
theorem C16_delta_final (o : FloatOps W) (t : Transducer W) (h : IsLm t) (hu : UnigramState t)
    (smallLm : List W) (bos eos : Int) (heos : 0 < eos) (u : W) (hsm : smallLm[eos.toNat]? = some u)
    (s e d g : Nat) (bs fs : List (Arc W)) (hc : Chain t eos s bs e) (a : Arc W)
    (ha : firstArc t e eos = some a) (hd : a.next = (d : Int)) (hf : FChain o t d fs g) (w : W)
    (hw : finalOf t g = some w) (hend : o.finite w = true ∨ firstArc t g 0 = none) :
    ∃ f b, convert t = .ok f ∧ initBucket0 f = .ok b ∧ ∀ fuel, bs.length < fuel → fs.length < fuel →
      (delta o smallLm (lmFst o f b fuel) bos eos).final s
        = .ok (o.sub (o.add (backedFinal o fs (if o.finite w then w else o.inf))
            (backedWeight o bs a.weight)) u) := by
  obtain ⟨f, b, h1, h2, h3⟩ := C14_unigram_table_transparent o t h hu
  obtain ⟨f', h1', h4⟩ := C13_backoff_lookup o t h eos (by omega) s e bs hc
  rw [h1] at h1'
  cases h1'
  obtain ⟨f'', h1'', h5⟩ := C13_backoff_final o t h d g fs hf w hw hend
  rw [h1] at h1''
  cases h1''
  have hlt := (List.getElem?_eq_some_iff.mp hsm).1
  refine ⟨f, b, h1, h2, fun fuel hf1 hf2 => ?_⟩
  have e1 := (h4 fuel hf1).1 a ha
  rw [← h3] at e1
  have e2 : small smallLm eos = .ok u := by
    unfold small
    rw [show decide (eos < smallLm.length) = true by simp; omega, cassert_true, ok_bind]
    exact aget_of (by omega) hsm
  unfold delta lmFst
  simp only
  rw [e1, ok_bind]
  simp only
  rw [hd, h5 fuel hf2, ok_bind, e2, ok_bind]

/-- The hypotheses of the C16 theorems on the example model, with 7 as the word, 8 as `<s>` and 9 as
`</s>` (which state 1 has). -/
example : ([0, 0, 0, 0, 0, 0, 0, 2, 0, 6] : List Int)[(7 : Int).toNat]? = some 2 ∧
    Chain exLm 7 2 [⟨1, 0, 0, 4⟩, ⟨0, 0, 0, 3⟩] 0 ∧ Chain exLm 8 2 [⟨1, 0, 0, 4⟩, ⟨0, 0, 0, 3⟩] 0 ∧
    Chain exLm 9 2 [⟨1, 0, 0, 4⟩] 1 ∧ firstArc exLm 1 9 = some ⟨2, 9, 9, 1⟩ ∧
    (convert exLm).bind (fun f => (initBucket0 f).bind (fun b =>
      (delta exOps [0, 0, 0, 0, 0, 0, 0, 2, 0, 6] (lmFst exOps f b 5) 8 9).getArc 2 7))
      = .ok (some ⟨1, 7, 7, 15⟩) ∧
    (convert exLm).bind (fun f => (initBucket0 f).bind (fun b =>
      (delta exOps [0, 0, 0, 0, 0, 0, 0, 2, 0, 6] (lmFst exOps f b 5) 8 9).final 2))
      = .ok (12 + 5 - 6) := by
  refine ⟨by decide, ?_, ?_, ?_, by decide, by decide +kernel, by decide +kernel⟩
  · exact .step (s' := 1) (by decide) (by decide) rfl
      (.step (s' := 0) (by decide) (by decide) rfl (.here 0))
  · exact .step (s' := 1) (by decide) (by decide) rfl
      (.step (s' := 0) (by decide) (by decide) rfl (.here 0))
  · exact .step (s' := 1) (by decide) (by decide) rfl (.here 1)

end Verif.Fst
