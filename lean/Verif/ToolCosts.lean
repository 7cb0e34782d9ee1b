import Verif.ToolPrune

/-!
# Lemmas about dictionaries, the cost array and the transition map
-/

namespace Verif.Tool

open Verif

variable {R : Type} {α β : Type} [DecidableEq α]

/-! ## Dictionaries -/

theorem dictGet_set (d : List (α × β)) (k k' : α) (v : β) :
    dictGet (dictSet d k v) k' = if k' = k then some v else dictGet d k' := by
  unfold dictGet
  induction d with
  | nil =>
    unfold dictSet
    by_cases h : k' = k
    · subst h; simp
    · have : (k' == k) = false := by simpa using h
      simp [List.lookup, this, h]
  | cons p d ih =>
    unfold dictSet
    obtain ⟨a, b⟩ := p
    by_cases hp : a = k
    · subst hp
      by_cases h : k' = a
      · subst h; simp
      · have : (k' == a) = false := by simpa using h
        simp [List.lookup, this, h]
    · rw [if_neg hp]
      by_cases h' : k' = a
      · subst h'
        simp [List.lookup, hp]
      · have : (k' == a) = false := by simpa using h'
        simp only [List.lookup, this, ih]

theorem dictAll_append (d a b : List (α × β)) : dictAll d (a ++ b) = dictAll (dictAll d a) b := by
  unfold dictAll; rw [List.foldl_append]

theorem dictGet_all_other (k : α) : ∀ (vs d : List (α × β)), (∀ q ∈ vs, q.1 ≠ k) →
    dictGet (dictAll d vs) k = dictGet d k
  | [], _, _ => rfl
  | q :: vs, d, h => by
    show dictGet (dictAll (dictSet d q.1 q.2) vs) k = _
    rw [dictGet_all_other k vs _ fun x hx => h x (List.mem_cons_of_mem _ hx), dictGet_set,
      if_neg fun e => h q List.mem_cons_self e.symm]

theorem dictGet_of_last {vs : List (α × β)} {k : α} {v : β} (h : LastIs vs k v) (d : List (α × β)) :
    dictGet (dictAll d vs) k = some v := by
  obtain ⟨a, b, rfl, hb⟩ := h
  rw [dictAll_append]
  show dictGet (dictAll (dictSet (dictAll d a) k v) b) k = _
  rw [dictGet_all_other k b _ hb, dictGet_set, if_pos rfl]

theorem last_or_none (k : α) : ∀ vs : List (α × β), (∃ v, LastIs vs k v) ∨ ∀ q ∈ vs, q.1 ≠ k
  | [] => .inr (by intro q h; cases h)
  | (a, b) :: vs => by
    rcases last_or_none k vs with ⟨v, x, y, e, hy⟩ | h
    · exact .inl ⟨v, (a, b) :: x, y, by rw [e]; rfl, hy⟩
    · by_cases hk : a = k
      · exact .inl ⟨b, [], vs, by rw [hk]; rfl, h⟩
      · refine .inr fun q hq => ?_
        rcases List.mem_cons.mp hq with hq | hq
        · rw [hq]; exact hk
        · exact h q hq

theorem last_of_mem {vs : List (α × β)} {k : α} {v : β} (h : (k, v) ∈ vs) : ∃ v', LastIs vs k v' := by
  rcases last_or_none k vs with h' | h'
  · exact h'
  · exact absurd rfl (h' _ h)

omit [DecidableEq α] in
theorem LastIs.mem {vs : List (α × β)} {k : α} {v : β} (h : LastIs vs k v) : (k, v) ∈ vs := by
  obtain ⟨a, b, rfl, -⟩ := h; simp

theorem dictGet_iff {vs : List (α × β)} {k : α} {v : β} : dictGet (dictAll [] vs) k = some v ↔ LastIs vs k v := by
  constructor
  · intro h
    rcases last_or_none k vs with ⟨v', h'⟩ | h'
    · rw [dictGet_of_last h'] at h; cases h; exact h'
    · rw [dictGet_all_other k vs [] h'] at h; cases h
  · exact fun h => dictGet_of_last h []

theorem dictGet_none_iff {vs : List (α × β)} {k : α} : dictGet (dictAll [] vs) k = none ↔ ∀ q ∈ vs, q.1 ≠ k := by
  constructor
  · intro h
    rcases last_or_none k vs with ⟨v', h'⟩ | h'
    · rw [dictGet_of_last h'] at h; cases h
    · exact h'
  · exact fun h => dictGet_all_other k vs [] h

/-- Keys occur once. -/
def Once (d : List (α × β)) : Prop := d.Pairwise fun p q => p.1 ≠ q.1

theorem dictSet_keys (d : List (α × β)) (k : α) (v : β) : ∀ q ∈ dictSet d k v, q = (k, v) ∨ q ∈ d := by
  induction d with
  | nil => intro q h; exact .inl (List.mem_singleton.mp h)
  | cons p d ih =>
    intro q h
    unfold dictSet at h
    split at h
    · rcases List.mem_cons.mp h with h | h
      · exact .inl h
      · exact .inr (List.mem_cons_of_mem _ h)
    · rcases List.mem_cons.mp h with h | h
      · exact .inr (h ▸ List.mem_cons_self)
      · rcases ih q h with h | h
        · exact .inl h
        · exact .inr (List.mem_cons_of_mem _ h)

theorem once_set {d : List (α × β)} (h : Once d) (k : α) (v : β) : Once (dictSet d k v) := by
  induction d with
  | nil => exact List.pairwise_singleton _ _
  | cons p d ih =>
    obtain ⟨h1, h2⟩ := List.pairwise_cons.mp h
    unfold dictSet
    split
    · rename_i he
      exact List.pairwise_cons.mpr ⟨fun q hq => by rw [← he]; exact h1 q hq, h2⟩
    · rename_i he
      refine List.pairwise_cons.mpr ⟨fun q hq => ?_, ih h2⟩
      rcases dictSet_keys d k v q hq with e | e
      · rw [e]; exact he
      · exact h1 q e

theorem once_all : ∀ (vs d : List (α × β)), Once d → Once (dictAll d vs)
  | [], _, h => h
  | q :: vs, _, h => once_all vs _ (once_set h q.1 q.2)

theorem once_get {d : List (α × β)} (h : Once d) {k : α} {v : β} : (k, v) ∈ d ↔ dictGet d k = some v := by
  unfold dictGet
  induction d with
  | nil => simp [List.lookup]
  | cons p d ih =>
    obtain ⟨a, b⟩ := p
    obtain ⟨h1, h2⟩ := List.pairwise_cons.mp h
    by_cases hk : k = a
    · subst hk
      simp only [List.mem_cons, Prod.mk.injEq, true_and, List.lookup, beq_self_eq_true, Option.some.injEq]
      constructor
      · rintro (h | h)
        · exact h.symm
        · exact absurd rfl (h1 (k, v) h)
      · exact fun h => .inl h.symm
    · have hb : (k == a) = false := by simpa using hk
      simp only [List.mem_cons, Prod.mk.injEq, hk, false_and, false_or, List.lookup, hb]
      exact ih h2

/-! ## The vocabulary -/

/-- The ids as Python's integers. -/
abbrev asInt (vs : List (Txt × Nat)) : List (Txt × Int) := vs.map fun p => (p.1, (p.2 : Int))

theorem vocab_fold {lines : List Txt} {vs : List (Txt × Nat)} (h : IsVocab lines vs) : ∀ d : List (Txt × Int),
    lines.foldlM vocabLine d = .ok (dictAll d (asInt vs)) := by
  induction h with
  | nil => intro d; rfl
  | blank hl _ ih =>
    intro d
    rw [List.foldlM_cons]
    unfold vocabLine
    rw [if_pos (strip_of_blank hl), ok_bind]
    exact ih d
  | entry hl _ ih =>
    intro d
    have hf := fields_of_reads hl
    have hb : ∀ l : Txt, fields l ≠ [] → strip l ≠ [] := by
      intro l h e
      apply h
      rw [← fields_strip, e]; rfl
    rw [List.foldlM_cons]
    unfold vocabLine
    rw [if_neg (hb _ (by rw [hf]; simp)), fields_strip, hf]
    simp only [pyInt_nat, ok_bind]
    exact ih _

theorem readVocab_ok {lines : List Txt} {vs : List (Txt × Nat)} (h : IsVocab lines vs) :
    readVocab lines = .ok (dictAll [] (asInt vs)) := vocab_fold h []

theorem last_asInt {vs : List (Txt × Nat)} {w : Txt} {x : Int} :
    LastIs (asInt vs) w x ↔ ∃ i : Nat, x = i ∧ LastIs vs w i := by
  constructor
  · rintro ⟨a, b, e, hb⟩
    obtain ⟨a', b', e', ha', hb'⟩ := List.map_eq_append_iff.mp e
    obtain ⟨p, b'', e2, hp, hb2⟩ := List.map_eq_cons_iff.mp hb'
    obtain ⟨p1, p2⟩ := p
    cases hp
    refine ⟨p2, rfl, a', b'', by rw [e', e2], fun q hq => ?_⟩
    have := hb (q.1, (q.2 : Int)) (by rw [← hb2]; exact List.mem_map.mpr ⟨q, hq, rfl⟩)
    exact this
  · rintro ⟨i, rfl, a, b, rfl, hb⟩
    refine ⟨asInt a, asInt b, by simp [asInt], fun q hq => ?_⟩
    obtain ⟨p, hp, rfl⟩ := List.mem_map.mp hq
    exact hb p hp

theorem foldl_max : ∀ (v : List (Txt × Int)) (m : Int),
    let r := v.foldl (fun m q => if q.2 > m then q.2 else m) m
    m ≤ r ∧ (∀ q ∈ v, q.2 ≤ r) ∧ (r = m ∨ ∃ q ∈ v, q.2 = r)
  | [], m => ⟨Int.le_refl _, (by intro q h; cases h), .inl rfl⟩
  | p :: v, m => by
    obtain ⟨h1, h2, h3⟩ := foldl_max v (if p.2 > m then p.2 else m)
    simp only [List.foldl_cons]
    have hm : m ≤ (if p.2 > m then p.2 else m) ∧ p.2 ≤ (if p.2 > m then p.2 else m) := by split <;> omega
    refine ⟨by omega, ?_, ?_⟩
    · intro q hq
      rcases List.mem_cons.mp hq with hq | hq
      · rw [hq]; omega
      · exact h2 q hq
    · rcases h3 with h3 | ⟨q, hq, e⟩
      · by_cases hp : p.2 > m
        · rw [if_pos hp] at h3 ⊢
          exact .inr ⟨p, List.mem_cons_self, h3.symm⟩
        · rw [if_neg hp] at h3 ⊢
          exact .inl h3
      · exact .inr ⟨q, List.mem_cons_of_mem _ hq, e⟩

theorem maxValue_spec {v : List (Txt × Int)} (h : v ≠ []) :
    ∃ m, maxValue v = some m ∧ (∀ q ∈ v, q.2 ≤ m) ∧ ∃ q ∈ v, q.2 = m := by
  cases v with
  | nil => exact absurd rfl h
  | cons p v =>
    obtain ⟨h1, h2, h3⟩ := foldl_max v p.2
    refine ⟨_, rfl, ?_, ?_⟩
    · intro q hq
      rcases List.mem_cons.mp hq with hq | hq
      · rw [hq]; exact h1
      · exact h2 q hq
    · rcases h3 with h3 | ⟨q, hq, e⟩
      · exact ⟨p, List.mem_cons_self, h3.symm⟩
      · exact ⟨q, List.mem_cons_of_mem _ hq, e⟩

/-! ## The array -/

theorem pySet_nat {γ : Type} {xs : List γ} {i : Nat} (h : i < xs.length) (x : γ) :
    pySet xs (i : Int) x = .ok (xs.set i x) := by
  unfold pySet
  rw [if_pos (by omega), if_pos (by omega)]
  simp

theorem costs_fold (num : Num R) (vocab : List (Txt × Int)) : ∀ (us : List (Txt × R)) (arr : List R),
    (us.Pairwise fun p q => ∀ i, dictGet vocab p.1 = some i → dictGet vocab q.1 ≠ some i) →
    (∀ p ∈ us, (p.1 = tUnk ∧ dictGet vocab p.1 = none) ∨
      ∃ i : Nat, dictGet vocab p.1 = some (i : Int) ∧ i < arr.length) →
    ∃ arr', us.foldlM (costWord num vocab) arr = .ok arr' ∧ arr'.length = arr.length ∧
      (∀ p ∈ us, ∀ i : Nat, dictGet vocab p.1 = some (i : Int) → arr'[i]? = some (num.cost p.2)) ∧
      ∀ i : Nat, (∀ p ∈ us, dictGet vocab p.1 ≠ some (i : Int)) → arr'[i]? = arr[i]?
  | [], arr, _, _ => ⟨arr, rfl, rfl, (by intro p h; cases h), fun _ _ => rfl⟩
  | p :: us, arr, hpw, hk => by
    obtain ⟨hp1, hp2⟩ := List.pairwise_cons.mp hpw
    rw [List.foldlM_cons]
    rcases hk p List.mem_cons_self with ⟨hu, hn⟩ | ⟨i, hi, hlt⟩
    · have : costWord num vocab arr p = .ok arr := by unfold costWord; rw [hn]; simp only; rw [if_pos hu]
      rw [this, ok_bind]
      obtain ⟨arr', h1, h2, h3, h4⟩ := costs_fold num vocab us arr hp2 fun q hq => hk q (List.mem_cons_of_mem _ hq)
      refine ⟨arr', h1, h2, ?_, ?_⟩
      · intro q hq j hj
        rcases List.mem_cons.mp hq with hq | hq
        · rw [hq, hn] at hj; cases hj
        · exact h3 q hq j hj
      · exact fun j hj => h4 j fun q hq => hj q (List.mem_cons_of_mem _ hq)
    · have : costWord num vocab arr p = .ok (arr.set i (num.cost p.2)) := by
        unfold costWord; rw [hi]; exact pySet_nat hlt _
      rw [this, ok_bind]
      obtain ⟨arr', h1, h2, h3, h4⟩ := costs_fold num vocab us (arr.set i (num.cost p.2)) hp2 fun q hq => by
        rw [List.length_set]; exact hk q (List.mem_cons_of_mem _ hq)
      refine ⟨arr', h1, by rw [h2, List.length_set], ?_, ?_⟩
      · intro q hq j hj
        rcases List.mem_cons.mp hq with hq | hq
        · rw [hq, hi] at hj
          have : i = j := by injection hj; omega
          subst this
          rw [h4 i fun r hr => hp1 r hr _ hi, hq, List.getElem?_set_self hlt]
        · exact h3 q hq j hj
      · intro j hj
        have hij : i ≠ j := by rintro rfl; exact hj p List.mem_cons_self hi
        rw [h4 j fun q hq => hj q (List.mem_cons_of_mem _ hq), List.getElem?_set_ne hij]

theorem packAll_ok (num : Num R) : ∀ xs : List R, (∀ x ∈ xs, num.pack x ≠ none) →
    ∃ ws, packAll num xs = .ok ws ∧ ws.length = xs.length ∧ (∀ x ∈ ws, x < 4294967296) ∧
      ∀ (i : Nat) (x : R), xs[i]? = some x → ∃ b, num.pack x = some b ∧ ws[i]? = some b.toNat
  | [], _ => ⟨[], rfl, rfl, (by intro x h; cases h), by intro i x h; cases h⟩
  | x :: xs, h => by
    obtain ⟨ws, h1, h2, h3, h4⟩ := packAll_ok num xs fun y hy => h y (List.mem_cons_of_mem _ hy)
    cases hp : num.pack x with
    | none => exact absurd hp (h x List.mem_cons_self)
    | some b =>
      refine ⟨b.toNat :: ws, by unfold packAll; rw [hp]; simp only; rw [h1, ok_bind], by simp [h2], ?_, ?_⟩
      · intro y hy
        rcases List.mem_cons.mp hy with hy | hy
        · rw [hy]; exact b.toNat_lt
        · exact h3 y hy
      · intro i y hy
        cases i with
        | zero => cases hy; exact ⟨b, hp, rfl⟩
        | succ i => exact h4 i y hy

/-! ## Exceptions -/

theorem foldlM_throw {γ δ : Type} {f : δ → γ → Exec δ} (hf : ∀ d x e, f d x = .error e → e = .throw) :
    ∀ (xs : List γ) (d : δ) {e : Fault}, xs.foldlM f d = .error e → e = .throw
  | [], d, e, h => by cases h
  | x :: xs, d, e, h => by
    rw [List.foldlM_cons] at h
    cases hx : f d x with
    | error e' => rw [hx] at h; cases h; exact hf d x _ hx
    | ok d' => rw [hx, ok_bind] at h; exact foldlM_throw hf xs d' h

theorem foldlM_fails {γ δ : Type} {f : δ → γ → Exec δ} (hf : ∀ d x e, f d x = .error e → e = .throw) {x : γ}
    (hx : ∀ d, f d x = .error .throw) : ∀ (xs : List γ) (d : δ), x ∈ xs → xs.foldlM f d = .error .throw
  | [], d, h => by cases h
  | y :: xs, d, h => by
    rw [List.foldlM_cons]
    cases hy : f d y with
    | error e => rw [hf d y e hy]; rfl
    | ok d' =>
      rw [ok_bind]
      rcases List.mem_cons.mp h with h | h
      · rw [← h, hx] at hy; cases hy
      · exact foldlM_fails hf hx xs d' h

theorem pySet_throw {γ : Type} {xs : List γ} {i : Int} {x : γ} {e : Fault} (h : pySet xs i x = .error e) : e = .throw := by
  unfold pySet at h
  split at h <;> split at h <;> cases h <;> rfl

theorem costWord_throw (num : Num R) (vocab : List (Txt × Int)) (arr : List R) (p : Txt × R) (e : Fault)
    (h : costWord num vocab arr p = .error e) : e = .throw := by
  unfold costWord at h
  split at h
  · split at h <;> cases h; rfl
  · exact pySet_throw h

theorem unigramLine_throw (num : Num R) (acc : St × List (Txt × R)) (l : Txt) (e : Fault)
    (h : unigramLine num acc l = .error e) : e = .throw := by
  obtain ⟨s, d⟩ := acc
  unfold unigramLine at h
  cases s <;> simp only at h <;> repeat' split at h
  all_goals first | (cases h; done) | (cases h; rfl)

theorem readUnigram_throw (num : Num R) {ls : List Txt} {e : Fault} (h : readUnigram num ls = .error e) : e = .throw := by
  unfold readUnigram at h
  cases hf : ls.foldlM (unigramLine num) (.begin, []) with
  | error e' => rw [hf] at h; cases h; exact foldlM_throw (unigramLine_throw num) ls _ hf
  | ok p =>
    rw [hf, ok_bind] at h
    simp only at h
    split at h <;> cases h
    rfl

theorem transLine_throw (m : List Int) (l : Txt) (e : Fault) (h : transLine m l = .error e) : e = .throw := by
  unfold transLine at h
  split at h
  · split at h
    · exact pySet_throw h
    · cases h; rfl
  · cases h; rfl

/-! ## The transition map -/

theorem trans_fold {lines : List Txt} {ps : List (Nat × Int)} (h : IsMap lines ps) : ∀ m : List Int,
    (∀ p ∈ ps, p.1 < m.length) → ∃ m', (lines.map strip).foldlM transLine m = .ok m' ∧ m'.length = m.length ∧
      (∀ (i : Nat) x, LastIs ps i x → m'[i]? = some x) ∧ ∀ i : Nat, (∀ p ∈ ps, p.1 ≠ i) → m'[i]? = m[i]? := by
  induction h with
  | nil =>
    intro m _
    refine ⟨m, rfl, rfl, ?_, fun _ _ => rfl⟩
    rintro i x ⟨a, b, e, -⟩
    simp at e
  | entry hl _ ih =>
    rename_i l ls ps i x _
    intro m hm
    have : transLine m (strip l) = .ok (m.set i x) := by
      unfold transLine
      rw [fields_strip, fields_of_reads hl]
      simp only [pyInt_nat, (pyInt_int x).2]
      exact pySet_nat (hm (i, x) List.mem_cons_self) x
    rw [List.map_cons, List.foldlM_cons, this, ok_bind]
    obtain ⟨m', h1, h2, h3, h4⟩ := ih (m.set i x) fun p hp => by
      rw [List.length_set]; exact hm p (List.mem_cons_of_mem _ hp)
    refine ⟨m', h1, by rw [h2, List.length_set], ?_, ?_⟩
    · rintro j y ⟨a, b, e, hb⟩
      cases a with
      | nil =>
        rw [List.nil_append, List.cons.injEq, Prod.mk.injEq] at e
        obtain ⟨⟨rfl, rfl⟩, rfl⟩ := e
        rw [h4 i hb, List.getElem?_set_self (hm (i, x) List.mem_cons_self)]
      | cons q a =>
        rw [List.cons_append, List.cons.injEq] at e
        exact h3 j y ⟨a, b, e.2, hb⟩
    · intro j hj
      rw [h4 j fun p hp => hj p (List.mem_cons_of_mem _ hp), List.getElem?_set_ne (hj (i, x) List.mem_cons_self)]

end Verif.Tool
