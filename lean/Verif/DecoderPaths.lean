import Verif.DecoderInv

/-!
# Tokens are paths; the best-path loop; the cutoff
-/

set_option linter.unusedSectionVars false

namespace Verif.Decoder

open Verif Verif.Fst

variable {F D : Type}

/-- A token that stands for a path over `n` of the given frames. -/
def IsPath (e : Env F D) (s0 : State) (fs : List (List F)) (n : Nat) (t : Token F) : Prop :=
  ∃ p, PathTo e s0 fs p t.state t.cost ∧ emitted p = n ∧ t.hist = (wordsOf p).reverse

theorem emitted_eps {p : List (GArc F)} {a : GArc F} (h : a.ilabel = 0) : emitted (p ++ [a]) = emitted p := by
  simp [emitted, h]

theorem emitted_emit {p : List (GArc F)} {a : GArc F} (h : a.ilabel ≠ 0) :
    emitted (p ++ [a]) = emitted p + 1 := by
  simp [emitted, h]

theorem wordsOf_snoc (p : List (GArc F)) (a : GArc F) :
    (wordsOf (p ++ [a])).reverse = extendHist (wordsOf p).reverse a.olabel := by
  unfold wordsOf extendHist
  by_cases h : a.olabel = 0 <;> simp [h]

theorem isPath_eps (e : Env F D) (s0 : State) (fs : List (List F)) (n : Nat) : EpsClosed e (IsPath e s0 fs n) := by
  rintro t a l k ⟨p, hp, hn, hh⟩ ha hl hk
  exact ⟨p ++ [a], .eps hp ha hl hk, (emitted_eps hl).trans hn, by rw [wordsOf_snoc, ← hh]; rfl⟩

theorem PathTo.append {e : Env F D} {s0 : State} {fs : List (List F)} (f : List F) {p : List (GArc F)} {s : State}
    {c : F} (h : PathTo e s0 fs p s c) : PathTo e s0 (fs ++ [f]) p s c := by
  induction h with
  | nil => exact .nil
  | eps _ ha hl hk ih => exact .eps ih ha hl hk
  | emit _ ha hl hf hv hk ih =>
    refine .emit ih ha hl ?_ hv hk
    rw [List.getElem?_append_left]
    · exact hf
    · exact (List.getElem?_eq_some_iff.1 hf).1

theorem isPath_emit (e : Env F D) (s0 : State) (fs : List (List F)) (f : List F) :
    EmitClosed e f (IsPath e s0 fs fs.length) (IsPath e s0 (fs ++ [f]) (fs ++ [f]).length) := by
  rintro t a l k v ⟨p, hp, hn, hh⟩ ha hl hv hk
  refine ⟨p ++ [a], .emit (hp.append f) ha hl ?_ hv hk, ?_, by rw [wordsOf_snoc, ← hh]; rfl⟩
  · rw [hn]; simp
  · rw [emitted_emit hl, hn]; simp

/-- Everything the proofs need about a run. -/
structure RunInv (e : Env F D) (fs : List (List F)) (bs : List Bool) (d : Dec F) : Prop where
  exact : IndexExact d
  paths : ∀ s0, StartState e s0 → ∀ t ∈ d.toks, IsPath e s0 fs fs.length t
  prev : d.prev = [] ∨ d.toks = []
  frames : d.frames = (bs.filter id).length
  eos : d.eos = false
  live : 0 ≤ d.live - d.toks.length
  alive : (∀ b ∈ bs, b = true) → d.toks ≠ [] ∧ d.prev = []

theorem Run.inv {e : Env F D} {fs : List (List F)} {bs : List Bool} {cs : List (Option (Cutoffs F D))} {d : Dec F}
    (h : Run e fs bs cs d) : RunInv e fs bs d := by
  induction h with
  | init h =>
    obtain ⟨_, s, _, _, hs, _, _⟩ := initDecoder_cases h
    obtain ⟨h1, h2, h3, h4, h5, h6, s', _, t, ht, _⟩ := initDecoder_inv (isPath_eps e s [] 0)
      (fun s' hs' => by rw [hs'.unique hs]; exact ⟨[], .nil, rfl, rfl⟩) h
    refine ⟨h1, ?_, .inl h3, by simpa using h4, h5, h6, fun _ => ⟨List.ne_nil_of_mem ht, h3⟩⟩
    intro s0 hs0 t ht
    rw [hs0.unique hs]
    exact h2 t ht
  | @frame fs bs cs d d' fuel f b c _ h ih =>
    have key : ∀ P Q, EmitClosed e f P Q → EpsClosed e Q → (∀ t ∈ d.toks, P t) → _ :=
      fun P Q h1 h2 h3 => process_inv (P := P) (Q := Q) h1 h2 ih.prev h3 h
    obtain ⟨h1, -, h3, h4, h5, h6, h7⟩ := key (fun _ => True) (fun _ => True) (fun _ _ _ _ _ _ _ _ _ _ => trivial)
      (fun _ _ _ _ _ _ _ _ => trivial) (fun _ _ => trivial)
    refine ⟨h1, ?_, h3, ?_, h5.trans ih.eos, Int.le_trans ih.live h7, ?_⟩
    · intro s0 hs0
      exact (key _ _ (isPath_emit e s0 fs f) (isPath_eps e s0 _ _) (ih.paths s0 hs0)).2.1
    · rw [h4, ih.frames]; cases b <;> simp
    · intro hb
      exact h6 (hb b (by simp))

/-! ## Best path -/

theorem pathCost_iff {e : Env F D} {eos : Bool} {t : Token F} {c : D} :
    pathCost e eos t = .ok c ↔ EndCost e eos t c := by
  unfold pathCost EndCost
  cases eos with
  | false => simp [eq_comm]
  | true =>
    cases hm : e.lm with
    | none => simp [eq_comm]
    | some lm =>
      constructor
      · intro h
        obtain ⟨w, h1, h2⟩ := bind_ok h
        cases h2
        exact .inr (.inr ⟨rfl, lm, w, rfl, h1, rfl⟩)
      · rintro (⟨h, _⟩ | ⟨_, h, _⟩ | ⟨_, lm', w, h, hw, rfl⟩)
        · cases h
        · cases h
        · cases h; simp only [if_true]; rw [hw, ok_bind]

theorem bestLoop_spec {e : Env F D} (ho : DOrder e.ar) {eos : Bool} :
    ∀ {l : List (Token F)} {b0 b : Option (Token F)} {c0 c : D}, bestLoop e eos l b0 c0 = .ok (b, c) →
      (∀ x, e.ar.dlt x c = true → e.ar.dlt x c0 = true) ∧
      (∀ t ∈ l, ∀ x, EndCost e eos t x → e.ar.dlt x c = false) ∧
      ((b = b0 ∧ c = c0) ∨ ∃ t ∈ l, b = some t ∧ EndCost e eos t c ∧ e.ar.isInf c = false ∧
        e.ar.dlt c c0 = true)
  | [], b0, b, c0, c, h => by
    cases h
    exact ⟨fun _ h => h, by simp, .inl ⟨rfl, rfl⟩⟩
  | t :: l, b0, b, c0, c, h => by
    unfold bestLoop at h
    obtain ⟨x, hx, h⟩ := bind_ok h
    have hx' := pathCost_iff.1 hx
    split at h
    · rename_i hc
      obtain ⟨h1, h2, h3⟩ := bestLoop_spec ho h
      refine ⟨fun y hy => ho.trans (h1 y hy) hc.2, ?_, .inr ?_⟩
      · intro u hu y hy
        rcases List.mem_cons.1 hu with rfl | hu
        · rw [pathCost_iff.2 hy] at hx
          have hxy := Except.ok.inj hx
          subst hxy
          cases hlt : e.ar.dlt y c with
          | false => rfl
          | true => exact absurd (h1 y hlt) (by simp [ho.irrefl])
        · exact h2 u hu y hy
      · rcases h3 with ⟨rfl, rfl⟩ | ⟨u, hu, hb, hy, hi, hlt⟩
        · exact ⟨t, by simp, rfl, hx', hc.1, hc.2⟩
        · exact ⟨u, by simp [hu], hb, hy, hi, ho.trans hlt hc.2⟩
    · rename_i hc
      obtain ⟨h1, h2, h3⟩ := bestLoop_spec ho h
      refine ⟨h1, ?_, ?_⟩
      · intro u hu y hy
        rcases List.mem_cons.1 hu with rfl | hu
        · rw [pathCost_iff.2 hy] at hx
          have hxy := Except.ok.inj hx
          subst hxy
          cases hlt : e.ar.dlt y c with
          | false => rfl
          | true =>
            cases hi : e.ar.isInf y with
            | true => rw [ho.inf_max hi] at hlt; cases hlt
            | false => exact absurd ⟨hi, h1 y hlt⟩ hc
        · exact h2 u hu y hy
      · rcases h3 with h3 | ⟨u, hu, h3⟩
        · exact .inl h3
        · exact .inr ⟨u, by simp [hu], h3⟩

theorem bestPath_cases {e : Env F D} {d : Dec F} {ws : List Int} {w : F} (h : bestPath e d = .ok (ws, w)) :
    (∃ c, bestLoop e d.eos d.toks none e.ar.inf = .ok (none, c) ∧ ws = [] ∧ w = e.ar.zero) ∨
    ∃ t c, bestLoop e d.eos d.toks none e.ar.inf = .ok (some t, c) ∧ ws = t.hist ∧
      w = e.ar.fadd (e.ar.toF c) (e.g.final t.state.1) := by
  unfold bestPath at h
  obtain ⟨⟨b, c⟩, h1, h⟩ := bind_ok h
  cases b with
  | none => cases h; exact .inl ⟨c, h1, rfl, rfl⟩
  | some t =>
    obtain ⟨_, _, h⟩ := bind_ok h
    cases h
    exact .inr ⟨t, c, h1, rfl, rfl⟩

theorem bestLoop_mem {e : Env F D} {eos : Bool} :
    ∀ {l : List (Token F)} {b0 b : Option (Token F)} {c0 c : D}, bestLoop e eos l b0 c0 = .ok (b, c) →
      b = b0 ∨ ∃ t ∈ l, b = some t ∧ EndCost e eos t c
  | [], _, _, _, _, h => by cases h; exact .inl rfl
  | t :: l, b0, b, c0, c, h => by
    unfold bestLoop at h
    obtain ⟨x, hx, h⟩ := bind_ok h
    split at h
    · rename_i hc
      have hc2 := hc
      -- the cost belongs to the last token taken
      have : ∀ {l : List (Token F)} {b0 b : Option (Token F)} {c0 c : D} {t0 : Token F},
          bestLoop e eos l b0 c0 = .ok (b, c) → b0 = some t0 → EndCost e eos t0 c0 →
          ∃ u, (u = t0 ∨ u ∈ l) ∧ b = some u ∧ EndCost e eos u c := by
        intro l
        induction l with
        | nil => intro b0 b c0 c t0 h hb hc; cases h; exact ⟨t0, .inl rfl, hb, hc⟩
        | cons a l ih =>
          intro b0 b c0 c t0 h hb hc
          unfold bestLoop at h
          obtain ⟨y, hy, h⟩ := bind_ok h
          split at h
          · obtain ⟨u, hu, h2⟩ := ih h rfl (pathCost_iff.1 hy)
            refine ⟨u, .inr ?_, h2⟩
            rcases hu with rfl | hu <;> simp [*]
          · obtain ⟨u, hu, h2⟩ := ih h hb hc
            refine ⟨u, ?_, h2⟩
            rcases hu with rfl | hu
            · exact .inl rfl
            · exact .inr (by simp [hu])
      obtain ⟨u, hu, h2⟩ := this h rfl (pathCost_iff.1 hx)
      refine .inr ⟨u, ?_, h2⟩
      rcases hu with rfl | hu <;> simp [*]
    · rcases bestLoop_mem h with h | ⟨u, hu, h⟩
      · exact .inl h
      · exact .inr ⟨u, by simp [hu], h⟩

/-! ## Cutoff -/

theorem cutoffLoop_spec {ar : Arith F D} (ho : DOrder ar) {n : Nat} :
    ∀ {l : List (Token F)} {x : Nat} {cs cs' : List F} {c0 c : D} {t0 t : Token F},
      cutoffLoop ar n l x cs c0 t0 = (cs', c, t) →
      (∀ y, ar.dlt y c = true → ar.dlt y c0 = true) ∧
      (∀ u ∈ l, ar.dlt (ar.toD u.cost) c = false) ∧
      ((c = c0 ∧ t = t0) ∨ (t ∈ l ∧ c = ar.toD t.cost ∧ ar.dlt c c0 = true)) ∧
      (∀ y ∈ cs', y ∈ cs ∨ ∃ u ∈ l, y = u.cost)
  | [], x, cs, cs', c0, c, t0, t, h => by
    cases h
    exact ⟨fun _ h => h, by simp, .inl ⟨rfl, rfl⟩, fun y hy => .inl hy⟩
  | u :: l, x, cs, cs', c0, c, t0, t, h => by
    have hmem : ∀ y ∈ (if sampled ar n (lcg x) then cs ++ [u.cost] else cs), y ∈ cs ∨ y = u.cost := by
      intro y hy
      split at hy
      · simpa using hy
      · exact .inl hy
    unfold cutoffLoop at h
    simp only at h
    split at h
    · rename_i hc
      obtain ⟨h1, h2, h3, h4⟩ := cutoffLoop_spec ho h
      refine ⟨fun y hy => ho.trans (h1 y hy) hc, ?_, .inr ?_, ?_⟩
      · intro v hv
        rcases List.mem_cons.1 hv with rfl | hv
        · cases hlt : ar.dlt (ar.toD v.cost) c with
          | false => rfl
          | true => exact absurd (h1 _ hlt) (by simp [ho.irrefl])
        · exact h2 v hv
      · rcases h3 with ⟨rfl, rfl⟩ | ⟨ht, hc', hlt⟩
        · exact ⟨by simp, rfl, hc⟩
        · exact ⟨by simp [ht], hc', ho.trans hlt hc⟩
      · intro y hy
        rcases h4 y hy with h | ⟨v, hv, h⟩
        · rcases hmem y h with h | h
          · exact .inl h
          · exact .inr ⟨u, by simp, h⟩
        · exact .inr ⟨v, by simp [hv], h⟩
    · rename_i hc
      obtain ⟨h1, h2, h3, h4⟩ := cutoffLoop_spec ho h
      refine ⟨h1, ?_, ?_, ?_⟩
      · intro v hv
        rcases List.mem_cons.1 hv with rfl | hv
        · cases hlt : ar.dlt (ar.toD v.cost) c with
          | false => rfl
          | true => exact absurd (h1 _ hlt) hc
        · exact h2 v hv
      · rcases h3 with h3 | ⟨ht, h3⟩
        · exact .inl h3
        · exact .inr ⟨by simp [ht], h3⟩
      · intro y hy
        rcases h4 y hy with h | ⟨v, hv, h⟩
        · rcases hmem y h with h | h
          · exact .inl h
          · exact .inr ⟨u, by simp, h⟩
        · exact .inr ⟨v, by simp [hv], h⟩

theorem mem_insertCost {ar : Arith F D} {x y : F} : ∀ {l : List F}, y ∈ insertCost ar x l ↔ y = x ∨ y ∈ l
  | [] => by simp [insertCost]
  | z :: l => by
    unfold insertCost
    split
    · simp only [List.mem_cons, mem_insertCost (l := l)]
      constructor <;> (rintro (h | h | h) <;> simp [h])
    · simp

theorem length_insertCost {ar : Arith F D} {x : F} : ∀ {l : List F}, (insertCost ar x l).length = l.length + 1
  | [] => rfl
  | z :: l => by
    unfold insertCost
    split
    · simp [length_insertCost (l := l)]
    · simp

theorem mem_sortCosts {ar : Arith F D} {y : F} : ∀ {l : List F}, y ∈ sortCosts ar l ↔ y ∈ l
  | [] => by simp [sortCosts]
  | x :: l => by simp [sortCosts, mem_insertCost, mem_sortCosts (l := l)]

theorem length_sortCosts {ar : Arith F D} : ∀ {l : List F}, (sortCosts ar l).length = l.length
  | [] => rfl
  | x :: l => by simp [sortCosts, length_insertCost, length_sortCosts (l := l)]

theorem maxActive_mem {ar : Arith F D} {n : Nat} {cs : List F} {m : F} (h : maxActive ar n cs = .ok (some m)) :
    m ∈ cs := by
  unfold maxActive at h
  split at h
  · split at h
    · cases h
    · obtain ⟨c, h1, h2⟩ := bind_ok h
      cases h2
      exact mem_sortCosts.1 (List.mem_of_getElem? (aget_ok h1).2.2)
  · cases h

theorem getCutoff_cases {ar : Arith F D} {l : List (Token F)} {cut : D} {ab : F} {t : Token F}
    (h : getCutoff ar l = .ok (cut, ab, t)) :
    ∃ t0 cs best, l.head? = some t0 ∧ cutoffLoop ar l.length l 802 [] ar.inf t0 = (cs, best, t) ∧
      ((ar.finite best = false ∧ cut = ar.inf ∧ ab = ar.toF ar.inf) ∨
       (ar.finite best = true ∧ ∃ m, maxActive ar l.length cs = .ok m ∧ (cut, ab) = chooseCutoff ar best m)) := by
  cases l with
  | nil => cases h
  | cons t0 l =>
    unfold getCutoff at h
    rcases hl : cutoffLoop ar (t0 :: l).length (t0 :: l) 802 [] ar.inf t0 with ⟨cs, best, bt⟩
    simp only [hl] at h
    split at h
    · rename_i hf
      cases h
      exact ⟨t0, cs, best, rfl, hl, .inl ⟨hf, rfl, rfl⟩⟩
    · rename_i hf
      obtain ⟨m, h1, h2⟩ := bind_ok h
      cases h2
      exact ⟨t0, cs, best, rfl, hl, .inr ⟨by simpa using hf, m, h1, rfl⟩⟩

end Verif.Decoder
