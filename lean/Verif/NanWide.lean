import Verif.NanExample

/-!
# A beam of more than 30000 tokens some of whose costs are not numbers

A run that makes more tokens than the beam holds, from one frame with one score that is not a number.
-/

namespace Verif.Decoder

open Verif Verif.Fst

/-- Number `i` of the arcs of the start state. -/
def wideArc (i : Nat) : GArc N := ⟨((i % 3 + 1 : Nat) : Int), 0, num 0, (i : Int) + 1⟩

/-- A start state with `n` arcs, each to a state of its own. -/
def wideGraph (n : Nat) : Graph N where
  start := 0
  arcs s := if s = 0 then (List.range n).map wideArc else []
  final _ := num 0

/-- The graph alone. -/
def wide (n : Nat) : Env N N := ⟨nar, wideGraph n, none, [0, 0, 1, 2], num 1⟩

/-- A frame in which one of three scores is not a number. -/
def wideFrame : List N := [nan, num 0, num (-1)]

/-- The cost of arc number `i` in this frame. -/
def wideCost (i : Nat) : N := if i % 3 = 0 then nan else if i % 3 = 1 then num 0 else num 1

/-- The token of arc number `i`. -/
def wideTok (i : Nat) : Token N := ⟨((i : Int) + 1, 0), wideCost i, []⟩

theorem wide_arcs0 (n : Nat) : (wide n).g.arcs 0 = (List.range n).map wideArc := by
  show (if (0 : Int) = 0 then (List.range n).map wideArc else []) = _
  rw [if_pos rfl]

/-- The entry of arc number `i` in the index. -/
def wideKey (i : Nat) : State × Nat := (((i : Int) + 1, 0), i)

/-- The decoder after the first `k` arcs. -/
def wideDec (prev : List (Token N)) (k : Nat) : Dec N :=
  ⟨(List.range k).map wideTok, prev, ((List.range k).map wideKey).reverse, 0, false,
    (k : Int) + 1⟩

theorem wide_total (n i : Nat) : emitTotal (wide n) wideFrame (num 0) (wideArc i) = .ok (wideCost i) := by
  have h : i % 3 = 0 ∨ i % 3 = 1 ∨ i % 3 = 2 := by omega
  unfold wideArc wideCost
  rcases h with h | h | h <;> rw [h]
  · rfl
  · show Except.ok (nop qadd (nop qadd (num 0) (num 0)) (Option.map (Option.map fun x => -x) (nop qmul (num 1) (num 0)))) = _
    rw [if_neg (by decide), if_pos rfl]
    decide +kernel
  · show Except.ok (nop qadd (nop qadd (num 0) (num 0)) (Option.map (Option.map fun x => -x) (nop qmul (num 1) (num (-1))))) = _
    rw [if_neg (by decide), if_neg (by decide)]
    decide +kernel

theorem wide_cost (i : Nat) : wideCost i = nan ∨ wideCost i = num 0 ∨ wideCost i = num 1 := by
  unfold wideCost
  split
  · exact .inl rfl
  · split
    · exact .inr (.inl rfl)
    · exact .inr (.inr rfl)

theorem wide_lookup (prev : List (Token N)) (k : Nat) : (wideDec prev k).idx.lookup ((k : Int) + 1, 0) = none := by
  rw [List.lookup_eq_none_iff]
  intro p hp
  simp only [wideDec, List.mem_reverse, List.mem_map, List.mem_range] at hp
  obtain ⟨i, hi, rfl⟩ := hp
  simp only [wideKey, bne_iff_ne, ne_eq, Prod.mk.injEq, and_true]
  omega

theorem wide_tighten (i : Nat) : tighten nar (num 16) (num 16) (wideCost i) = num 16 := by
  rcases wide_cost i with h | h | h <;> rw [h] <;> decide +kernel

theorem wide_emitArc (n : Nat) (prev : List (Token N)) (k : Nat) :
    emitArc (wide n) wideFrame (num 16) ⟨(0, 0), num 0, []⟩ (num 16, wideDec prev k) (wideArc k) =
      .ok (num 16, wideDec prev (k + 1)) := by
  unfold emitArc
  simp only
  rw [if_neg (show ¬ (wideArc k).ilabel = 0 by unfold wideArc; simp only; omega), wide_total, ok_bind]
  have h1 : ¬ (wide n).ar.dlt (num 16) (wideCost k) = true := by
    show ¬ nlt (num 16) (wideCost k) = true
    rcases wide_cost k with h | h | h <;> rw [h] <;> decide +kernel
  rw [if_neg h1]
  have h2 : addLm (wide n) 0 (wideArc k).olabel (wideCost k) = .ok (0, wideCost k) := rfl
  have h3 : decide (0 ≤ (wideArc k).next ∧ (0 : Int) ≤ 0) = true := by
    rw [decide_eq_true_eq]; unfold wideArc; simp only; omega
  have h4 : insertTok (wide n) (wideDec prev k) ((wideArc k).next, 0) (wideArc k).olabel [] ((wide n).ar.toF (wideCost k)) =
      .ok (true, wideDec prev (k + 1)) := by
    unfold insertTok
    have : (wideDec prev k).idx.lookup ((wideArc k).next, 0) = none := wide_lookup prev k
    simp only [this]
    congr 2
    unfold wideDec
    simp only [List.range_succ, List.map_append, List.map_cons, List.map_nil, List.reverse_append, List.reverse_cons,
      List.reverse_nil, List.nil_append, List.length_map, List.length_range, List.cons_append, Dec.mk.injEq]
    refine ⟨rfl, trivial, rfl, trivial, trivial, ?_⟩
    omega
  rw [h2, ok_bind]
  simp only
  rw [h3, cassert_true, ok_bind, h4, ok_bind]
  simp only
  rw [show tighten (wide n).ar (num 16) (num 16) (wideCost k) = num 16 from wide_tighten k]

theorem wide_emit (n : Nat) (prev : List (Token N)) : ∀ k : Nat,
    ((List.range k).map wideArc).foldlM (emitArc (wide n) wideFrame (num 16) ⟨(0, 0), num 0, []⟩)
      (num 16, wideDec prev 0) = .ok (num 16, wideDec prev k)
  | 0 => rfl
  | k + 1 => by
    rw [List.range_succ, List.map_append, List.foldlM_append, wide_emit n prev k, ok_bind]
    simp only [List.map_cons, List.map_nil, List.foldlM_cons, List.foldlM_nil]
    rw [wide_emitArc, ok_bind]
    rfl

theorem wide_bestArc (n i : Nat) : bestArc (wide n) wideFrame (num 16) (num 0) (num 16) (wideArc i) = .ok (num 16) := by
  unfold bestArc
  rw [if_neg (show ¬ (wideArc i).ilabel = 0 by unfold wideArc; simp only; omega), wide_total, ok_bind]
  rw [show tighten (wide n).ar (num 16) (num 16) (wideCost i) = num 16 from wide_tighten i]

theorem wide_best (n : Nat) : ∀ k : Nat, ((List.range (k + 2)).map wideArc).foldlM (bestArc (wide n) wideFrame (num 16) (num 0))
    (some none) = .ok (num 16)
  | 0 => by
    show [wideArc 0, wideArc 1].foldlM (bestArc (wide n) wideFrame (num 16) (num 0)) (some none) = _
    have h0 : bestArc (wide n) wideFrame (num 16) (num 0) (some none) (wideArc 0) = .ok (some none) := by
      unfold bestArc
      rw [if_neg (by decide), wide_total, ok_bind]
      rfl
    have h1 : bestArc (wide n) wideFrame (num 16) (num 0) (some none) (wideArc 1) = .ok (num 16) := by
      unfold bestArc
      rw [if_neg (by decide), wide_total, ok_bind]
      show Except.ok (tighten nar (num 16) (some none) (wideCost 1)) = _
      decide +kernel
    simp only [List.foldlM_cons, List.foldlM_nil]
    rw [h0, ok_bind, h1, ok_bind]
    rfl
  | k + 1 => by
    rw [List.range_succ, List.map_append, List.foldlM_append, wide_best n k, ok_bind]
    simp only [List.map_cons, List.map_nil, List.foldlM_cons, List.foldlM_nil]
    rw [wide_bestArc, ok_bind]
    rfl

/-- The epsilon loop does nothing when no waiting state has epsilon arcs. -/
theorem nonemitLoop_still {F D : Type} {e : Env F D} {cutoff : D} {d : Dec F} : ∀ {stack : List State} {fuel : Nat},
    stack.length ≤ fuel → (∀ st ∈ stack, d.idx.lookup st ≠ none ∧ ∀ a ∈ e.g.arcs st.1, a.ilabel ≠ 0) →
    nonemitLoop e cutoff fuel d stack = .ok d
  | [], fuel, _, _ => by cases fuel <;> rfl
  | st :: stack, 0, h, _ => by simp at h
  | st :: stack, fuel + 1, h, hs => by
    unfold nonemitLoop
    obtain ⟨h1, h2⟩ := hs st (by simp)
    cases hl : d.idx.lookup st with
    | none => exact absurd hl h1
    | some i =>
      simp only
      have key : ∀ (l : List (GArc F)), (∀ a ∈ l, a.ilabel ≠ 0) →
          l.foldlM (nonemitArc e i cutoff) (d, stack) = .ok (d, stack) := by
        intro l
        induction l with
        | nil => intro _; rfl
        | cons a l ih =>
          intro ha
          have h3 : nonemitArc e i cutoff (d, stack) a = .ok (d, stack) := by
            unfold nonemitArc
            simp only
            rw [if_pos (ha a (by simp))]
          rw [List.foldlM_cons, h3, ok_bind]
          exact ih fun b hb => ha b (by simp [hb])
      rw [key _ h2, ok_bind]
      exact nonemitLoop_still (by simpa using h) fun s hs' => hs s (by simp [hs'])

theorem wide_init (n : Nat) : initDecoder (wide n) 1 fresh = .ok ⟨[⟨(0, 0), num 0, []⟩], [], [((0, 0), 0)], 0, false, 1⟩ := by
  have h : processNonemitting (wide n) (wide n).ar.inf 1 ⟨[⟨(0, 0), num 0, []⟩], [], [((0, 0), 0)], 0, false, 1⟩ =
      .ok ⟨[⟨(0, 0), num 0, []⟩], [], [((0, 0), 0)], 0, false, 1⟩ := by
    unfold processNonemitting
    show nonemitLoop (wide n) (wide n).ar.inf 1 _ _ = _
    refine nonemitLoop_still (by simp) ?_
    intro st hst
    have hst : st = (0, 0) := by simpa using hst
    subst hst
    refine ⟨by decide, ?_⟩
    rw [wide_arcs0]
    intro a ha
    obtain ⟨i, _, rfl⟩ := List.mem_map.1 ha
    unfold wideArc
    simp only
    omega
  exact h

/-- The decoder after the frame. -/
def wideEnd (n : Nat) : Dec N := { wideDec [] n with frames := 1, live := n }

theorem wide_cutoff : getCutoff nar [⟨(0, 0), num 0, []⟩] = .ok (num 16, num 16, ⟨(0, 0), num 0, []⟩) := by
  decide +kernel

theorem wide_emitting {n : Nat} (hn : 2 ≤ n) : processEmitting (wide n) wideFrame ⟨[⟨(0, 0), num 0, []⟩], [], [((0, 0), 0)], 0, false, 1⟩ =
    .ok (some ⟨num 16, num 16⟩, { wideDec [] n with live := n }) := by
  unfold processEmitting
  simp only
  rw [show getCutoff (wide n).ar _ = _ from wide_cutoff, ok_bind]
  simp only
  have hfin : (wide n).ar.finite ((wide n).ar.toD ((wide n).ar.toF (num 16))) = true := rfl
  rw [if_neg (by rw [hfin]; decide)]
  rw [show ((wide n).g.arcs 0) = _ from wide_arcs0 n, show (wide n).ar.inf = some none from rfl,
    show List.range n = List.range (n - 2 + 2) by rw [Nat.sub_add_cancel hn], wide_best n (n - 2), ok_bind]
  simp only [List.foldlM_cons, List.foldlM_nil]
  have h : emitTok (wide n) wideFrame ((wide n).ar.toF (num 16)) (num 16)
      (num 16, ⟨[], [⟨(0, 0), num 0, []⟩], [], 0, false, 1⟩) ⟨(0, 0), num 0, []⟩ =
      .ok (num 16, { wideDec [⟨(0, 0), num 0, []⟩] n with live := n }) := by
    unfold emitTok
    have hw : (wide n).ar.flt ((wide n).ar.toF (num 16)) (num 0) = false := by
      show nlt (num 16) (num 0) = false
      decide +kernel
    simp only
    rw [if_neg (by rw [hw]; decide)]
    rw [wide_arcs0]
    have := wide_emit n [⟨(0, 0), num 0, []⟩] n
    rw [show ((num 16, (⟨[], [⟨(0, 0), num 0, []⟩], [], 0, false, 1⟩ : Dec N)) : N × Dec N) =
      (num 16, wideDec [⟨(0, 0), num 0, []⟩] 0) from rfl, this, ok_bind]
    simp only [wideDec]
    congr 3
    omega
  rw [h]
  rfl

theorem wide_process {n : Nat} (hn : 2 ≤ n) : process (wide n) n wideFrame ⟨[⟨(0, 0), num 0, []⟩], [], [((0, 0), 0)], 0, false, 1⟩ =
    .ok (true, some ⟨num 16, num 16⟩, wideEnd n) := by
  unfold process
  rw [wide_emitting hn, ok_bind]
  simp only
  have hfin : (wide n).ar.finite ((wide n).ar.toD ((wide n).ar.toF (num 16))) = true := rfl
  rw [if_neg (by rw [hfin]; decide)]
  have h : processNonemitting (wide n) ((wide n).ar.toD ((wide n).ar.toF (num 16))) n { wideDec [] n with live := n } =
      .ok { wideDec [] n with live := n } := by
    unfold processNonemitting
    have hall : ((wideDec [] n).toks.all fun t => decide (0 ≤ t.state.1)) = true := by
      rw [List.all_eq_true]
      intro t ht
      simp only [wideDec, List.mem_map, List.mem_range] at ht
      obtain ⟨i, _, rfl⟩ := ht
      have : (0 : Int) ≤ (i : Int) + 1 := by omega
      exact decide_eq_true this
    simp only
    rw [hall, cassert_true, ok_bind]
    refine nonemitLoop_still (by simp [wideDec]) ?_
    intro st hst
    simp only [wideDec, List.mem_reverse, List.mem_map, List.mem_range] at hst
    obtain ⟨t, ⟨i, hi, rfl⟩, rfl⟩ := hst
    refine ⟨?_, ?_⟩
    · simp only [wideDec, wideTok]
      intro h0
      rw [List.lookup_eq_none_iff] at h0
      have := h0 (wideKey i) (by
        simp only [List.mem_reverse, List.mem_map, List.mem_range]
        exact ⟨i, hi, rfl⟩)
      simp [wideKey] at this
    · have : (wide n).g.arcs (wideTok i).state.1 = [] := by
        have h0 : ¬ (i : Int) + 1 = 0 := by omega
        show (if (i : Int) + 1 = 0 then (List.range n).map wideArc else []) = []
        rw [if_neg h0]
      rw [this]
      simp
  rw [h, ok_bind]
  have hne : ¬ (wideDec [] n).toks = [] := by
    intro h0
    have := congrArg List.length h0
    simp [wideDec] at this
    omega
  simp only
  rw [if_neg hne]
  rfl

theorem wide_run {n : Nat} (hn : 2 ≤ n) : Run (wide n) [wideFrame] [true] [some ⟨num 16, num 16⟩] (wideEnd n) :=
  .frame (.init (wide_init n)) (wide_process hn)

/-! ## The sample -/

theorem cutoffLoop_keep {F D : Type} {ar : Arith F D} {n : Nat} :
    ∀ {l : List (Token F)} {x : Nat} {cs cs' : List F} {c0 c : D} {t0 t : Token F},
      cutoffLoop ar n l x cs c0 t0 = (cs', c, t) → ∀ y ∈ cs, y ∈ cs'
  | [], x, cs, cs', c0, c, t0, t, h => by cases h; exact fun _ hy => hy
  | u :: l, x, cs, cs', c0, c, t0, t, h => by
    unfold cutoffLoop at h
    simp only at h
    intro y hy
    have : y ∈ (if sampled ar n (lcg x) then cs ++ [u.cost] else cs) := by split <;> simp [hy]
    split at h <;> exact cutoffLoop_keep h y this

theorem cutoffLoop_takes {F D : Type} {ar : Arith F D} {n : Nat} :
    ∀ {l : List (Token F)} {x : Nat} {cs cs' : List F} {c0 c : D} {t0 t : Token F} (j : Nat) {u : Token F},
      cutoffLoop ar n l x cs c0 t0 = (cs', c, t) → l[j]? = some u →
      sampled ar n (steps lcg (j + 1) x) = true → u.cost ∈ cs'
  | [], _, _, _, _, _, _, _, _, _, _, hj, _ => by simp at hj
  | v :: l, x, cs, cs', c0, c, t0, t, j, u, h, hj, hs => by
    unfold cutoffLoop at h
    simp only at h
    cases j with
    | zero =>
      have hv : v = u := by simpa using hj
      subst hv
      have : v.cost ∈ (if sampled ar n (lcg x) then cs ++ [v.cost] else cs) := by
        rw [steps_succ, steps_zero] at hs
        simp [hs]
      split at h <;> exact cutoffLoop_keep h _ this
    | succ j =>
      rw [steps_succ] at hs
      have hj : l[j]? = some u := by simpa using hj
      split at h <;> exact cutoffLoop_takes j h hj hs

theorem nar_dorder : DOrder nar where
  trans := nlt_trans
  irrefl a := by
    cases a with
    | none => rfl
    | some a => exact qar_mono.frefl a
  inf_max {a} h b := by
    have h : a = some none := by simpa [nar] using h
    subst h
    cases b with
    | none => rfl
    | some b => rfl
  isInf_inf := rfl

theorem wide_low : steps lcg 133 802 % 65536 = 89 ∧ steps lcg 314 802 % 65536 = 36 ∧ steps lcg 369 802 % 65536 = 53 := by
  decide +kernel

theorem wide_sample {n : Nat} (hn : 30000 < n) (hn' : n < 60000) : (wideEnd n).toks.length = n ∧
    (wideEnd n).toks.head? = some (wideTok 0) ∧ ∃ cs best t,
      cutoffLoop nar (wideEnd n).toks.length (wideEnd n).toks 802 [] nar.inf (wideTok 0) = (cs, best, t) ∧
      nar.finite best = true ∧ num 0 ∈ cs ∧ num 1 ∈ cs ∧ nan ∈ cs := by
  have hlen : (wideEnd n).toks.length = n := by simp [wideEnd, wideDec]
  have hget : ∀ i, i < n → (wideEnd n).toks[i]? = some (wideTok i) := by
    intro i hi
    simp only [wideEnd, wideDec, List.getElem?_map]
    rw [List.getElem?_range hi]
    rfl
  have hhead : (wideEnd n).toks.head? = some (wideTok 0) := by
    rw [List.head?_eq_getElem?]
    exact hget 0 (by omega)
  rcases hc : cutoffLoop nar (wideEnd n).toks.length (wideEnd n).toks 802 [] nar.inf (wideTok 0) with ⟨cs, best, t⟩
  obtain ⟨l0, l1, l2⟩ := wide_low
  have hs : ∀ j : Nat, steps lcg (j + 1) 802 % 65536 < 100 →
      sampled nar (wideEnd n).toks.length (steps lcg (j + 1) 802) = true := by
    intro j hj
    unfold sampled
    rw [hlen]
    have : steps lcg (j + 1) 802 % 65536 * n ≤ 100 * 60000 := Nat.mul_le_mul (by omega) (by omega)
    exact nar_frac _ _ _ _ (Nat.lt_trans (Nat.mod_lt _ (by decide)) (by decide)) (by decide) (by decide) (by decide) (by omega) (by omega)
      (by omega)
  have m0 := cutoffLoop_takes 132 hc (hget 132 (by omega)) (hs 132 (by rw [l0]; decide))
  have m1 := cutoffLoop_takes 313 hc (hget 313 (by omega)) (hs 313 (by rw [l1]; decide))
  have m2 := cutoffLoop_takes 368 hc (hget 368 (by omega)) (hs 368 (by rw [l2]; decide))
  refine ⟨hlen, hhead, cs, best, t, rfl, ?_, m1, m2, m0⟩
  · obtain ⟨_, h1, h2, _⟩ := cutoffLoop_spec nar_dorder hc
    have h0 : nlt (num 0) best = false := h1 (wideTok 1) (List.mem_of_getElem? (hget 1 (by omega)))
    rcases h2 with ⟨rfl, _⟩ | ⟨ht, rfl, h3⟩
    · exact absurd h0 (by decide)
    · cases hq : t.cost with
      | none => rw [hq] at h3; exact absurd h3 (by decide)
      | some q =>
        cases q with
        | none => rw [hq] at h3; exact absurd h3 (by decide)
        | some r => rfl

end Verif.Decoder
