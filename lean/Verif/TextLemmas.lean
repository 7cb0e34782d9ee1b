import Verif.TextSpec

/-!
# Facts about the string helpers
-/

namespace Verif.Text

open Verif

/-! ## Trim -/

theorem isSpace_iff (c : UInt8) : isSpace c = true ↔ White c := by
  unfold isSpace White
  simp only [Bool.or_eq_true, Bool.and_eq_true, beq_iff_eq, decide_eq_true_eq, List.mem_cons,
    List.not_mem_nil, or_false, UInt8.le_iff_toNat_le, ← UInt8.toNat_inj]
  simp
  omega

theorem dropWhile_cons_head {s r : Str} {a : UInt8} (h : s.dropWhile isSpace = a :: r) :
    isSpace a = false := by
  induction s with
  | nil => cases h
  | cons c s ih =>
    rw [List.dropWhile_cons] at h
    cases hc : isSpace c with
    | true => rw [hc, if_pos rfl] at h; exact ih h
    | false => rw [hc] at h; simp only [Bool.false_eq_true, if_false] at h; cases h; exact hc

/-- The string without surrounding white space, by two passes. -/
def core (s : Str) : Str := ((s.dropWhile isSpace).reverse.dropWhile isSpace).reverse

theorem dropWhile_allSpace (l x : Str) (h : ∀ c ∈ l, isSpace c = true) :
    (l ++ x).dropWhile isSpace = x.dropWhile isSpace := by
  induction l with
  | nil => rfl
  | cons c l ih =>
    have hc := h c (List.mem_cons_self ..)
    simp only [List.cons_append, List.dropWhile_cons, hc, if_true]
    exact ih (fun c hc => h c (List.mem_cons_of_mem _ hc))

theorem dropWhile_head (c : UInt8) (x : Str) (h : isSpace c = false) :
    (c :: x).dropWhile isSpace = c :: x := by
  simp [h]

theorem IsTrimmed.core_eq {s t : Str} (h : IsTrimmed s t) : core s = t := by
  obtain ⟨l, r, rfl, hl, hr, hh, hg⟩ := h
  have hl' : ∀ c ∈ l, isSpace c = true := fun c hc => (isSpace_iff c).2 (hl c hc)
  have hr' : ∀ c ∈ r.reverse, isSpace c = true := fun c hc =>
    (isSpace_iff c).2 (hr c (List.mem_reverse.1 hc))
  unfold core
  rw [List.append_assoc, dropWhile_allSpace l _ hl']
  cases t with
  | nil =>
    have : (([] : Str) ++ r).dropWhile isSpace = [] := by
      have := dropWhile_allSpace r [] (fun c hc => (isSpace_iff c).2 (hr c hc))
      simpa using this
    rw [this]; rfl
  | cons c t =>
    have hc : isSpace c = false := by
      cases h : isSpace c with
      | false => rfl
      | true => exact absurd ((isSpace_iff c).1 h) (hh c rfl)
    rw [List.cons_append, dropWhile_head c _ hc, ← List.cons_append, List.reverse_append,
      dropWhile_allSpace _ _ hr']
    have hne : (c :: t).reverse ≠ [] := by simp
    obtain ⟨d, u, hu⟩ := List.exists_cons_of_ne_nil hne
    have hlast : (c :: t).getLast? = some d := by
      rw [← List.head?_reverse, hu]; rfl
    have hd : isSpace d = false := by
      cases h : isSpace d with
      | false => rfl
      | true => exact absurd ((isSpace_iff d).1 h) (hg d hlast)
    rw [hu, dropWhile_head d _ hd, ← hu, List.reverse_reverse]

theorem trimBegin_eq (s : Str) (i : Nat) : trimBegin s i = i + (s.takeWhile isSpace).length := by
  induction s generalizing i with
  | nil => rfl
  | cons c s ih =>
    unfold trimBegin
    cases h : isSpace c with
    | false => simp [h]
    | true =>
      rw [if_pos rfl, ih]
      simp [h]; omega

theorem trimEnd_spec (s : Str) (b : Nat) : ∀ e, b < e →
    ∃ k : Nat, trimEnd s b e = (k : Int) ∧ b ≤ k ∧ k < e ∧
      (∀ i, k < i → i < e → ∃ c, s[i]? = some c ∧ isSpace c = true) ∧
      (k = b ∨ ∀ c, s[k]? = some c → isSpace c = false) := by
  intro e
  induction e with
  | zero => intro h; omega
  | succ e ih =>
    intro hb
    unfold trimEnd
    by_cases hc : b < e ∧ ((s[e]?).map isSpace).getD false = true
    · rw [if_pos hc]
      obtain ⟨k, h1, h2, h3, h4, h5⟩ := ih hc.1
      refine ⟨k, h1, h2, by omega, ?_, h5⟩
      intro i hi hie
      by_cases he : i = e
      · subst he
        cases hs : s[i]? with
        | none => rw [hs] at hc; simp at hc
        | some c =>
          rw [hs] at hc
          exact ⟨c, rfl, by simpa using hc.2⟩
      · exact h4 i hi (by omega)
    · rw [if_neg hc]
      refine ⟨e, rfl, by omega, by omega, fun i h h' => by omega, ?_⟩
      by_cases hbe : b = e
      · exact Or.inl hbe.symm
      · refine Or.inr (fun c hc' => ?_)
        cases hsp : isSpace c with
        | false => rfl
        | true => exact absurd ⟨by omega, by rw [hc']; simpa using hsp⟩ hc

theorem takeWhile_all (s : Str) : ∀ c ∈ s.takeWhile isSpace, isSpace c = true := by
  intro c hc
  induction s with
  | nil => simp at hc
  | cons a s ih =>
    rw [List.takeWhile_cons] at hc
    cases h : isSpace a with
    | false => simp [h] at hc
    | true =>
      simp only [h, if_true, List.mem_cons] at hc
      rcases hc with rfl | hc
      · exact h
      · exact ih hc

theorem trim_spec (s : Str) : ∃ t, trim s = .ok t ∧ IsTrimmed s t := by
  have hb : trimBegin s 0 = (s.takeWhile isSpace).length := by rw [trimBegin_eq]; omega
  have hsplit : s.takeWhile isSpace ++ s.dropWhile isSpace = s := List.takeWhile_append_dropWhile
  have hlen := congrArg List.length hsplit
  rw [List.length_append] at hlen
  have hdrop : s.drop (s.takeWhile isSpace).length = s.dropWhile isSpace := by
    have := congrArg (List.drop (s.takeWhile isSpace).length) hsplit
    rw [List.drop_left] at this
    exact this.symm
  cases hd : s.dropWhile isSpace with
  | nil =>
    rw [hd] at hlen hsplit hdrop
    refine ⟨[], ?_, s, [], by simp, ?_, by simp, by simp, by simp⟩
    · have hs : s.takeWhile isSpace = s := by simpa using hsplit
      unfold trim
      simp only [hb, hs]
      cases hl : s.length with
      | zero => simp [trimEnd]
      | succ n =>
        unfold trimEnd
        rw [if_neg (by omega), if_neg (by omega)]
        simp
    · intro c hc
      have hs : s.takeWhile isSpace = s := by simpa using hsplit
      exact (isSpace_iff c).1 (takeWhile_all s c (by rw [hs]; exact hc))
  | cons a r =>
    rw [hd] at hlen hsplit hdrop
    have hna : isSpace a = false := dropWhile_cons_head hd
    have hlt : (s.takeWhile isSpace).length < s.length := by simp at hlen; omega
    obtain ⟨k, h1, h2, h3, h4, h5⟩ := trimEnd_spec s (s.takeWhile isSpace).length s.length hlt
    generalize hbb : (s.takeWhile isSpace).length = b at *
    have hsb : s[b]? = some a := by
      have := congrArg (fun l => l[0]?) hdrop
      simpa using this
    have hk : ∀ c, s[k]? = some c → isSpace c = false := by
      rcases h5 with h5 | h5
      · subst h5; intro c hc; rw [hsb] at hc; cases hc; exact hna
      · exact h5
    refine ⟨(s.drop b).take (k + 1 - b), ?_, s.take b, s.drop (k + 1), ?_, ?_, ?_, ?_, ?_⟩
    · unfold trim
      simp only [hb, h1]
      rw [if_neg (by omega)]
      congr 2
    · have e1 : s.take b ++ (s.drop b).take (k + 1 - b) = s.take (k + 1) := by
        rw [show k + 1 = b + (k + 1 - b) by omega, List.take_add]
        congr 3; omega
      rw [e1, List.take_append_drop]
    · intro c hc
      have : s.take b = s.takeWhile isSpace := by
        have := congrArg (List.take b) hsplit
        rw [← hbb, List.take_left] at this
        rw [← hbb]; exact this.symm
      rw [this] at hc
      exact (isSpace_iff c).1 (takeWhile_all s c hc)
    · intro c hc
      obtain ⟨i, hi, hci⟩ := List.getElem_of_mem hc
      obtain ⟨c', hc', hsp⟩ := h4 (k + 1 + i) (by omega) (by simp at hi; omega)
      have : s[k + 1 + i]? = some c := by
        rw [← List.getElem?_drop, List.getElem?_eq_getElem hi, hci]
      rw [this] at hc'; cases hc'
      exact (isSpace_iff c).1 hsp
    · intro c hc hw
      have : s[b]? = some c := by
        rw [List.head?_take, if_neg (by omega)] at hc
        rw [List.head?_drop] at hc
        exact hc
      rw [hsb] at this; cases this
      rw [(isSpace_iff _).2 hw] at hna; cases hna
    · intro c hc hw
      have hlen' : ((s.drop b).take (k + 1 - b)).length = k + 1 - b := by
        rw [List.length_take, List.length_drop]; omega
      rw [List.getLast?_eq_getElem?, hlen', List.getElem?_take, if_pos (by omega),
        List.getElem?_drop, show b + (k + 1 - b - 1) = k by omega] at hc
      have := hk c hc
      rw [(isSpace_iff _).2 hw] at this; cases this

/-! ## find, Split -/

theorem length_pos_of_ne_nil {s : Str} (h : s ≠ []) : 0 < s.length := List.length_pos_iff.2 h

theorem startsWith_iff (d s : Str) : startsWith d s = true ↔ d <+: s := by
  induction d generalizing s with
  | nil => simp [startsWith]
  | cons x d ih =>
    cases s with
    | nil => simp [startsWith]
    | cons y s => simp [startsWith, ih, List.cons_prefix_cons]

theorem find_some {d s : Str} {p : Nat} (h : find d s = some p) :
    d <+: s.drop p ∧ p ≤ s.length ∧ ∀ q, q < p → ¬ d <+: s.drop q := by
  induction s generalizing p with
  | nil =>
    unfold find at h
    split at h
    · next hs => cases h; exact ⟨(startsWith_iff _ _).1 hs, by simp, fun q hq => by omega⟩
    · cases h
  | cons c s ih =>
    unfold find at h
    split at h
    · next hs => cases h; exact ⟨(startsWith_iff _ _).1 hs, by simp, fun q hq => by omega⟩
    · next hs =>
      cases hf : find d s with
      | none => rw [hf] at h; cases h
      | some q =>
        rw [hf] at h; cases h
        obtain ⟨h1, h2, h3⟩ := ih hf
        refine ⟨by simpa using h1, by simpa using h2, fun r hr => ?_⟩
        cases r with
        | zero => exact fun hp => hs ((startsWith_iff _ _).2 hp)
        | succ r => simpa using h3 r (Nat.lt_of_succ_lt_succ hr)

theorem find_none {d s : Str} (h : find d s = none) : ¬ d <:+: s := by
  induction s with
  | nil =>
    unfold find at h
    split at h
    · cases h
    · next hs =>
      intro hi
      have : d = [] := by simpa using hi
      subst this; simp [startsWith] at hs
  | cons c s ih =>
    unfold find at h
    split at h
    · cases h
    · next hs =>
      cases hf : find d s with
      | some q => rw [hf] at h; cases h
      | none =>
        intro hi
        rcases List.infix_cons_iff.1 hi with hp | hi
        · exact hs ((startsWith_iff _ _).2 hp)
        · exact ih hf hi

theorem infix_take {d s : Str} {p : Nat} (hd : d ≠ []) (h : d <:+: s.take p) :
    ∃ q, q < p ∧ d <+: s.drop q := by
  obtain ⟨a, b, hab⟩ := h
  have hlen := congrArg List.length hab
  have hdl : 0 < d.length := length_pos_of_ne_nil hd
  simp only [List.length_append, List.length_take] at hlen
  refine ⟨a.length, by omega, b ++ s.drop p, ?_⟩
  have hs : s = a ++ (d ++ (b ++ s.drop p)) := by
    conv => lhs; rw [← List.take_append_drop p s, ← hab]
    simp
  conv => rhs; rw [hs, List.drop_left]

theorem find_split {d s : Str} {p : Nat} (hd : d ≠ []) (h : find d s = some p) :
    s = s.take p ++ d ++ s.drop (p + d.length) ∧ ¬ d <:+: s.take p := by
  obtain ⟨h1, h2, h3⟩ := find_some h
  refine ⟨?_, fun hi => ?_⟩
  · obtain ⟨t, ht⟩ := h1
    have : s.drop (p + d.length) = t := by
      rw [← List.drop_drop, ← ht, List.drop_left]
    rw [this, List.append_assoc, ht, List.take_append_drop]
  · obtain ⟨q, hq, hp⟩ := infix_take hd hi
    exact h3 q hq hp

theorem splitFrom_spec {d : Str} (hd : d ≠ []) : ∀ fuel s, s.length < fuel →
    ∃ fs, splitFrom d fuel s = .ok fs ∧ (∀ f ∈ fs, ¬ d <:+: f) ∧
      ((s = join d fs ∧ fs.getLast? ≠ some []) ∨ (s = join d fs ++ d ∧ fs ≠ [])) := by
  have hdl : 0 < d.length := length_pos_of_ne_nil hd
  intro fuel
  induction fuel with
  | zero => intro s h; omega
  | succ fuel ih =>
    intro s hs
    unfold splitFrom
    cases hf : find d s with
    | none =>
      refine ⟨_, rfl, ?_, Or.inl ?_⟩
      · intro f hfm
        split at hfm
        · rw [List.mem_singleton] at hfm; subst hfm; exact find_none hf
        · simp at hfm
      · split
        · next h => exact ⟨rfl, by simp; intro h'; subst h'; simp at h⟩
        · next h =>
          have : s = [] := List.eq_nil_of_length_eq_zero (by omega)
          subst this; exact ⟨rfl, by simp⟩
    | some p =>
      obtain ⟨hsp, hni⟩ := find_split hd hf
      have hlen := congrArg List.length hsp
      simp only [List.length_append, List.length_take, List.length_drop] at hlen
      obtain ⟨fs, h1, h2, h3⟩ := ih (s.drop (p + d.length)) (by rw [List.length_drop]; omega)
      refine ⟨s.take p :: fs, by simp only [h1]; rfl, ?_, ?_⟩
      · intro f hfm
        rcases List.mem_cons.1 hfm with rfl | hfm
        · exact hni
        · exact h2 f hfm
      · generalize s.drop (p + d.length) = r at *
        generalize s.take p = x at *
        cases fs with
        | nil =>
          rcases h3 with ⟨h3, _⟩ | ⟨_, h3⟩
          · simp only [join] at h3
            subst h3
            exact Or.inr ⟨by rw [hsp]; simp [join], by simp⟩
          · exact absurd rfl h3
        | cons g fs =>
          rcases h3 with ⟨h3, h4⟩ | ⟨h3, _⟩
          · exact Or.inl ⟨by rw [hsp, h3]; simp [join], by simpa using h4⟩
          · exact Or.inr ⟨by rw [hsp, h3]; simp [join], by simp⟩

theorem find_byte {c : UInt8} {f : Str} (r : Str) (h : c ∉ f) : find [c] (f ++ c :: r) = some f.length := by
  induction f with
  | nil => simp [find, startsWith]
  | cons x f ih =>
    have hx : c ≠ x := fun hx => h (by rw [hx]; exact List.mem_cons_self ..)
    have hf : c ∉ f := fun hf => h (List.mem_cons_of_mem _ hf)
    simp [find, startsWith, hx, ih hf]

theorem find_byte_none {c : UInt8} {f : Str} (h : c ∉ f) : find [c] f = none := by
  induction f with
  | nil => simp [find, startsWith]
  | cons x f ih =>
    have hx : c ≠ x := fun hx => h (by rw [hx]; exact List.mem_cons_self ..)
    have hf : c ∉ f := fun hf => h (List.mem_cons_of_mem _ hf)
    simp [find, startsWith, hx, ih hf]

theorem splitFrom_join {c : UInt8} (fs : List Str) (hfree : ∀ f ∈ fs, c ∉ f) :
    (∀ fuel, fs.length < fuel → fs.getLast? ≠ some [] → splitFrom [c] fuel (join [c] fs) = .ok fs) ∧
    (∀ fuel, fs.length < fuel → fs ≠ [] → splitFrom [c] fuel (join [c] fs ++ [c]) = .ok fs) := by
  induction fs with
  | nil =>
    refine ⟨fun fuel h _ => ?_, fun fuel _ h => absurd rfl h⟩
    obtain ⟨k, rfl⟩ : ∃ k, fuel = k + 1 := ⟨fuel - 1, by simp at h; omega⟩
    rfl
  | cons f fs ih =>
    have hf := hfree f (List.mem_cons_self ..)
    obtain ⟨ih1, ih2⟩ := ih (fun g hg => hfree g (List.mem_cons_of_mem _ hg))
    have hstep : ∀ fuel r, splitFrom [c] (fuel + 1) (f ++ c :: r) =
        (splitFrom [c] fuel r >>= fun fs => .ok (f :: fs)) := by
      intro fuel r
      rw [splitFrom]
      simp only [find_byte r hf]
      have h1 : (f ++ c :: r).take f.length = f := List.take_left
      have h2 : (f ++ c :: r).drop (f.length + [c].length) = r := by
        rw [← List.drop_drop, List.drop_left]; rfl
      rw [h1, h2]
    cases fs with
    | nil =>
      constructor
      · intro fuel h hl
        obtain ⟨k, rfl⟩ : ∃ k, fuel = k + 1 := ⟨fuel - 1, by omega⟩
        have hne : f ≠ [] := by simpa using hl
        show splitFrom [c] (k + 1) f = _
        unfold splitFrom
        simp only [find_byte_none hf]
        rw [if_pos (length_pos_of_ne_nil hne)]
      · intro fuel h _
        obtain ⟨k, rfl⟩ : ∃ k, fuel = k + 1 + 1 := ⟨fuel - 2, by simp at h; omega⟩
        simp only [join]
        rw [hstep]
        rfl
    | cons g fs =>
      constructor
      · intro fuel h hl
        obtain ⟨k, rfl⟩ : ∃ k, fuel = k + 1 := ⟨fuel - 1, by omega⟩
        have e : join [c] (f :: g :: fs) = f ++ c :: join [c] (g :: fs) := by simp [join]
        rw [e, hstep, ih1 k (by simp at h ⊢; omega) (by simpa using hl)]
        rfl
      · intro fuel h _
        obtain ⟨k, rfl⟩ : ∃ k, fuel = k + 1 := ⟨fuel - 1, by omega⟩
        have e : join [c] (f :: g :: fs) ++ [c] = f ++ c :: (join [c] (g :: fs) ++ [c]) := by simp [join]
        rw [e, hstep, ih2 k (by simp at h ⊢; omega) (by simp)]
        rfl

theorem length_join_ge (c : UInt8) (fs : List Str) (h : fs ≠ []) :
    fs.length ≤ (join [c] fs).length + 1 := by
  induction fs with
  | nil => exact absurd rfl h
  | cons f fs ih =>
    cases fs with
    | nil => simp
    | cons g fs =>
      have := ih (by simp)
      simp only [join, List.length_append, List.length_cons, List.length_nil] at this ⊢
      omega

theorem length_join_ge' (c : UInt8) (fs : List Str) (h : fs.getLast? ≠ some []) :
    fs.length ≤ (join [c] fs).length := by
  induction fs with
  | nil => simp
  | cons f fs ih =>
    cases fs with
    | nil =>
      have hne : f ≠ [] := by simpa using h
      have := length_pos_of_ne_nil hne
      simp [join]; omega
    | cons g fs =>
      have := ih (by simpa using h)
      simp only [join, List.length_append, List.length_cons, List.length_nil] at this ⊢
      omega

theorem infix_singleton {c : UInt8} {f : Str} : [c] <:+: f ↔ c ∈ f := by
  constructor
  · rintro ⟨a, b, h⟩
    rw [← h]; simp
  · intro h
    obtain ⟨a, b, rfl⟩ := List.append_of_mem h
    exact ⟨a, b, by simp⟩

theorem splitFrom_empty (fuel : Nat) (s : Str) : splitFrom [] fuel s = .error .fuel := by
  induction fuel with
  | zero => rfl
  | succ fuel ih =>
    have hf : find [] s = some 0 := by cases s <;> rfl
    unfold splitFrom
    simp only [hf]
    show (splitFrom [] fuel s >>= _) = _
    rw [ih]; rfl

/-! ## Format -/

theorem find_brace {p : Str} (r : Str) (h : 123 ∉ p ∨ 125 ∉ p) :
    find [123, 125] (p ++ [123, 125] ++ r) = some p.length := by
  induction p with
  | nil => simp [find, startsWith]
  | cons x p ih =>
    have hp : 123 ∉ p ∨ 125 ∉ p :=
      h.imp (fun h h' => h (List.mem_cons_of_mem _ h')) (fun h h' => h (List.mem_cons_of_mem _ h'))
    have hs : startsWith [123, 125] (x :: (p ++ [123, 125] ++ r)) = false := by
      cases p with
      | nil => simp [startsWith]
      | cons y p =>
        simp only [startsWith, List.cons_append, Bool.and_true]
        cases hx : (123 == x) with
        | false => rfl
        | true =>
          cases hy : (125 == y) with
          | false => rfl
          | true =>
            have ex := eq_of_beq hx
            have ey := eq_of_beq hy
            subst ex; subst ey
            simp at h
    simp only [List.cons_append] at hs ⊢
    unfold find
    rw [if_neg (by rw [hs]; simp), ih hp]
    rfl

theorem find_brace_none {p : Str} (h : 123 ∉ p ∨ 125 ∉ p) : find [123, 125] p = none := by
  cases hf : find [123, 125] p with
  | none => rfl
  | some q =>
    obtain ⟨h1, _⟩ := find_some hf
    obtain ⟨t, ht⟩ := h1
    have hm : ∀ c ∈ ([123, 125] : Str), c ∈ p := fun c hc =>
      List.mem_of_mem_drop (i := q) (by rw [← ht]; exact List.mem_append_left _ hc)
    rcases h with h | h
    · exact absurd (hm 123 (by simp)) h
    · exact absurd (hm 125 (by simp)) h

theorem fill_prefix (x p : Str) (ps as : List Str) : fill (x ++ p) ps as = x ++ fill p ps as := by
  cases ps with
  | nil => simp [fill]
  | cons q ps => cases as <;> simp [fill]

theorem fill_nil_args (p : Str) (ps : List Str) : fill p ps [] = join [123, 125] (p :: ps) := by
  induction ps generalizing p with
  | nil => rfl
  | cons q ps ih => simp [fill, join, ih]

theorem format_none (p : Str) (as : List Str) (h : 123 ∉ p ∨ 125 ∉ p) : format p as = p := by
  induction as with
  | nil => rfl
  | cons a as ih => simp only [format, find_brace_none h]; exact ih

theorem format_fill (as : List Str) : ∀ (p : Str) (ps : List Str), BraceFree (p :: ps ++ as) →
    format (join [123, 125] (p :: ps)) as = fill p ps as := by
  induction as with
  | nil => intro p ps _; rw [fill_nil_args]; rfl
  | cons a as ih =>
    intro p ps h
    have hp : 123 ∉ p ∨ 125 ∉ p := h.imp (fun h => h p (by simp)) (fun h => h p (by simp))
    cases ps with
    | nil => exact format_none p (a :: as) hp
    | cons q ps =>
      have e : join [123, 125] (p :: q :: ps) = p ++ [123, 125] ++ join [123, 125] (q :: ps) := rfl
      rw [e]
      unfold format
      simp only [find_brace _ hp]
      have e2 : replace2 (p ++ [123, 125] ++ join [123, 125] (q :: ps)) p.length a
          = join [123, 125] ((p ++ a ++ q) :: ps) := by
        unfold replace2
        rw [List.append_assoc p, List.take_left, ← List.drop_drop, List.drop_left]
        cases ps <;> simp [join]
      rw [e2, ih]
      · rw [fill_prefix]; rfl
      · have key : ∀ c : UInt8, (∀ s ∈ p :: q :: ps ++ a :: as, c ∉ s) →
            ∀ s ∈ (p ++ a ++ q) :: ps ++ as, c ∉ s := by
          intro c hc s hs
          simp only [List.cons_append, List.mem_cons, List.mem_append] at hs
          rcases hs with rfl | hs | hs
          · simp only [List.mem_append, not_or]
            exact ⟨⟨hc p (by simp), hc a (by simp)⟩, hc q (by simp)⟩
          · exact hc s (by simp [hs])
          · exact hc s (by simp [hs])
        exact h.imp (key 123) (key 125)

/-! ## strlcpy -/

theorem aget_str {src : Str} {i : Nat} {c : UInt8} (h : src[i]? = some c) :
    aget src (i : Int) = .ok c := aget_nat h

theorem src_at {s rest : Str} {i : Nat} (hi : i < s.length) (h0 : 0 ∉ s) :
    ∃ c, (s ++ 0 :: rest)[i]? = some c ∧ s[i]? = some c ∧ c ≠ 0 := by
  have h := List.getElem?_eq_getElem hi
  refine ⟨s[i], by rw [List.getElem?_append_left hi]; exact h, h, fun h' => h0 ?_⟩
  rw [← h']; exact List.getElem_mem hi

theorem src_end (s rest : Str) : (s ++ 0 :: rest)[s.length]? = some 0 := by
  rw [List.getElem?_append_right (Nat.le_refl _), Nat.sub_self]; rfl

theorem copyLoop_spec {s rest : Str} (h0 : 0 ∉ s) : ∀ n buf i, i ≤ s.length → i + n ≤ buf.length →
    ∃ c, copyLoop (s ++ 0 :: rest) n buf i i = .ok c ∧ c.buf.length = buf.length ∧
      (∀ j, c.buf[j]? = if i ≤ j ∧ j < i + n ∧ j ≤ s.length then (s ++ 0 :: rest)[j]? else buf[j]?) ∧
      (c.n = 0 → c.d = i + n ∧ c.s = i + n ∧ i + n ≤ s.length) ∧
      (c.n ≠ 0 → c.s = s.length + 1 ∧ s.length < i + n) := by
  intro n
  induction n with
  | zero =>
    intro buf i hi hb
    refine ⟨⟨buf, i, i, 0⟩, rfl, rfl, fun j => ?_, fun _ => ⟨rfl, rfl, hi⟩, fun h => absurd rfl h⟩
    rw [if_neg (by omega)]
  | succ n ih =>
    intro buf i hi hb
    unfold copyLoop
    by_cases he : i = s.length
    · have hs : (s ++ 0 :: rest)[i]? = some 0 := by rw [he]; exact src_end s rest
      rw [aget_str hs, ok_bind, aset_nat (by omega), ok_bind, if_pos rfl]
      refine ⟨_, rfl, by simp, fun j => ?_, fun h => absurd h (by simp), fun _ => ⟨by simp [he], by omega⟩⟩
      rw [List.getElem?_set]
      by_cases hj : i = j
      · subst hj; rw [if_pos rfl, if_pos (by omega), if_pos (by omega), hs]
      · rw [if_neg hj, if_neg (by omega)]
    · obtain ⟨c, hc, _, hc0⟩ := src_at (rest := rest) (i := i) (by omega) h0
      rw [aget_str hc, ok_bind, aset_nat (by omega), ok_bind, if_neg hc0]
      obtain ⟨r, h1, h2, h3, h4, h5⟩ := ih (buf.set i c) (i + 1) (by omega) (by simp; omega)
      refine ⟨r, h1, by simpa using h2, fun j => ?_, fun h => ?_, fun h => ?_⟩
      · rw [h3 j, List.getElem?_set]
        by_cases hj : i = j
        · subst hj
          rw [if_neg (by omega), if_pos rfl, if_pos (by omega), if_pos (by omega), hc]
        · by_cases hc' : i + 1 ≤ j ∧ j < i + 1 + n ∧ j ≤ s.length
          · rw [if_pos hc', if_pos (by omega)]
          · rw [if_neg hc', if_neg hj, if_neg (by omega)]
      · obtain ⟨h6, h7, h8⟩ := h4 h; exact ⟨by omega, by omega, by omega⟩
      · obtain ⟨h6, h7⟩ := h5 h; exact ⟨h6, by omega⟩

theorem scanEnd_spec {s rest : Str} (h0 : 0 ∉ s) : ∀ fuel i, i ≤ s.length → s.length < i + fuel →
    scanEnd (s ++ 0 :: rest) fuel i = .ok (s.length + 1) := by
  intro fuel
  induction fuel with
  | zero => intro i h h'; omega
  | succ fuel ih =>
    intro i h h'
    unfold scanEnd
    by_cases he : i = s.length
    · have hs : (s ++ 0 :: rest)[i]? = some 0 := by rw [he]; exact src_end s rest
      rw [aget_str hs, ok_bind, if_pos rfl, he]
    · obtain ⟨c, hc, _, hc0⟩ := src_at (rest := rest) (i := i) (by omega) h0
      rw [aget_str hc, ok_bind, if_neg hc0]
      exact ih (i + 1) (by omega) (by omega)

/-- Content of the destination after a copy of `n > 0` bytes. -/
def copied (dst s : Str) (n : Nat) : Str := s.take (n - 1) ++ [0] ++ dst.drop (min s.length (n - 1) + 1)

theorem copied_get (dst s : Str) (n : Nat) (j : Nat) :
    (copied dst s n)[j]? = if j < min s.length (n - 1) then s[j]?
      else if j = min s.length (n - 1) then some 0 else dst[j]? := by
  unfold copied
  have hl : (s.take (n - 1)).length = min s.length (n - 1) := by rw [List.length_take, Nat.min_comm]
  by_cases h1 : j < min s.length (n - 1)
  · rw [if_pos h1, List.append_assoc, List.getElem?_append_left (by omega), List.getElem?_take,
      if_pos (by omega)]
  · rw [if_neg h1, List.append_assoc, List.getElem?_append_right (by omega), hl]
    by_cases h2 : j = min s.length (n - 1)
    · rw [if_pos h2, h2, Nat.sub_self]; rfl
    · rw [if_neg h2, List.getElem?_append_right (by simp; omega), List.getElem?_drop]
      congr 1; simp; omega

theorem strlcpy_spec {dst s rest : Str} {n : Nat} (h0 : 0 ∉ s) (hb : n ≤ dst.length) :
    strlcpy dst (s ++ 0 :: rest) n = .ok (if n = 0 then dst else copied dst s n, s.length) := by
  unfold strlcpy copyFront
  by_cases hn : n ≠ 0 ∧ n - 1 ≠ 0
  · rw [if_pos hn]
    obtain ⟨c, h1, h2, h3, h4, h5⟩ := copyLoop_spec (rest := rest) h0 (n - 1) dst 0 (by omega) (by omega)
    rw [h1, ok_bind, if_neg hn.1]
    by_cases hc : c.n = 0
    · obtain ⟨h6, h7, h8⟩ := h4 hc
      rw [if_pos hc, terminate, if_pos hn.1, h6, h7, aset_nat (by omega), ok_bind,
        scanEnd_spec h0 _ _ (by omega) (by simp; omega), ok_bind]
      congr 2
      apply List.ext_getElem?
      intro j
      rw [copied_get dst s n, List.getElem?_set, h3 j]
      by_cases hj : 0 + (n - 1) = j
      · rw [if_pos hj, if_pos (by omega), if_neg (by omega), if_pos (by omega)]
      · rw [if_neg hj]
        by_cases hj2 : j < min s.length (n - 1)
        · rw [if_pos (by omega), if_pos hj2, List.getElem?_append_left (by omega)]
        · rw [if_neg (by omega), if_neg hj2, if_neg (by omega)]
    · obtain ⟨h6, h7⟩ := h5 hc
      rw [if_neg hc, h6]
      congr 2
      apply List.ext_getElem?
      intro j
      rw [copied_get dst s n, h3 j]
      by_cases hj : j = s.length
      · subst hj
        rw [if_pos (by omega), if_neg (by omega), if_pos (by omega), src_end]
      · by_cases hj2 : j < s.length
        · rw [if_pos (by omega), if_pos (by omega), List.getElem?_append_left (by omega)]
        · rw [if_neg (by omega), if_neg (by omega), if_neg (by omega)]
  · rw [if_neg hn, ok_bind, if_pos (by show n - 1 = 0; omega)]
    have hs := scanEnd_spec (rest := rest) h0 ((s ++ 0 :: rest).length + 1) 0 (by omega) (by simp; omega)
    by_cases h : n = 0
    · rw [terminate, if_neg (by omega), ok_bind, hs, ok_bind, if_pos h]
      rfl
    · rw [terminate, if_pos h, aset_nat (show 0 < _ by show 0 < dst.length; omega), ok_bind, hs, ok_bind,
        if_neg h]
      congr 2
      apply List.ext_getElem?
      intro j
      rw [copied_get dst s n, List.getElem?_set]
      by_cases hj : 0 = j
      · rw [if_pos hj, if_pos (by show 0 < dst.length; omega), if_neg (by omega), if_pos (by omega)]
      · rw [if_neg hj, if_neg (by omega), if_neg (by omega)]

/-! ## Hypothesis text -/

theorem symGet_some {syms : List Str} {id : Int} {w : Str} (h : word? syms id = some w) :
    symGet syms id = .ok w := by
  unfold word? at h
  split at h
  · next h0 =>
    cases hs : syms[id.toNat]? with
    | none => rw [hs] at h; cases h
    | some v =>
      rw [hs] at h; cases h
      have hlt : id.toNat < syms.length := (List.getElem?_eq_some_iff.1 hs).1
      unfold symGet
      rw [show decide (0 ≤ id ∧ id < (syms.length : Int)) = true by simp; omega, cassert_true, ok_bind,
        aget_of h0 hs]
      rfl
  · cases h

theorem symGet_none {syms : List Str} {id : Int} (h : word? syms id = none) :
    symGet syms id = .error .assert := by
  unfold symGet
  have hd : decide (0 ≤ id ∧ id < (syms.length : Int)) = false := by
    unfold word? at h
    split at h
    · simp at h; simp; omega
    · simp; omega
  rw [hd, cassert_false, error_bind]

/-- The words, each followed by a blank. -/
def spaced (ws : List Str) : Str := ws.flatMap (· ++ [32])

theorem spaced_eq_join (ws : List Str) (h : ws ≠ []) : spaced ws = join [32] ws ++ [32] := by
  induction ws with
  | nil => exact absurd rfl h
  | cons w ws ih =>
    cases ws with
    | nil => simp [spaced, join]
    | cons v ws =>
      have := ih (by simp)
      unfold spaced at this ⊢
      rw [List.flatMap_cons, this]
      simp [join]

theorem hypLoop_ok {syms : List Str} : ∀ (ids : List Int) (ws : List Str) (text : Str),
    ids.map (word? syms) = ws.map some → hypLoop syms ids text = .ok (text ++ spaced ws) := by
  intro ids
  induction ids with
  | nil => intro ws text h; cases ws with
    | nil => simp [hypLoop, spaced]
    | cons => cases h
  | cons i ids ih =>
    intro ws text h
    cases ws with
    | nil => cases h
    | cons w ws =>
      simp only [List.map_cons, List.cons.injEq] at h
      unfold hypLoop
      rw [symGet_some h.1, ok_bind, ih ws _ h.2]
      simp [spaced]

theorem hypLoop_assert {syms : List Str} : ∀ (ids : List Int) (text : Str),
    none ∈ ids.map (word? syms) → hypLoop syms ids text = .error .assert := by
  intro ids
  induction ids with
  | nil => intro text h; simp at h
  | cons i ids ih =>
    intro text h
    unfold hypLoop
    cases hw : word? syms i with
    | none => rw [symGet_none hw]; rfl
    | some w =>
      rw [symGet_some hw, ok_bind]
      apply ih
      simpa [hw] using h

theorem zero_notMem_cstr (w : Str) : 0 ∉ cstr w := by
  intro h
  unfold cstr at h
  induction w with
  | nil => simp at h
  | cons c w ih =>
    rw [List.takeWhile_cons] at h
    by_cases hc : c = 0
    · simp [hc] at h
    · simp only [ne_eq, hc, not_false_eq_true, decide_true, if_true, List.mem_cons] at h
      rcases h with h | h
      · exact hc h.symm
      · exact ih (by simpa using h)

theorem word?_noNul {syms : List Str} {id : Int} {w : Str} (h : word? syms id = some w) : 0 ∉ w := by
  unfold word? at h
  split at h
  · cases hs : syms[id.toNat]? with
    | none => rw [hs] at h; cases h
    | some v => rw [hs] at h; cases h; exact zero_notMem_cstr v
  · cases h

/-! ## Lines -/

theorem fgets_line : ∀ (n : Nat) (x r : Str), 10 ∉ x → x.length + 1 ≤ n →
    fgets n (x ++ 10 :: r) = (x ++ [10], r, false) := by
  intro n
  induction n with
  | zero => intro x r _ h; omega
  | succ n ih =>
    intro x r hx hn
    cases x with
    | nil => simp [fgets]
    | cons c x =>
      have hc : c ≠ 10 := fun h => hx (by rw [h]; exact List.mem_cons_self ..)
      have hx' : 10 ∉ x := fun h => hx (List.mem_cons_of_mem _ h)
      simp only [List.cons_append, fgets, if_neg hc, ih x r hx' (by simp at hn; omega)]

theorem fgets_end : ∀ (n : Nat) (x : Str), 10 ∉ x → x.length < n → fgets n x = (x, [], true) := by
  intro n
  induction n with
  | zero => intro x _ h; omega
  | succ n ih =>
    intro x hx hn
    cases x with
    | nil => simp [fgets]
    | cons c x =>
      have hc : c ≠ 10 := fun h => hx (by rw [h]; exact List.mem_cons_self ..)
      have hx' : 10 ∉ x := fun h => hx (List.mem_cons_of_mem _ h)
      simp only [fgets, if_neg hc, ih x hx' (by simp at hn; omega)]

theorem cstr_id {x : Str} (h : 0 ∉ x) : cstr x = x := by
  unfold cstr
  induction x with
  | nil => rfl
  | cons c x ih =>
    have hc : c ≠ 0 := fun h' => h (by rw [h']; exact List.mem_cons_self ..)
    rw [List.takeWhile_cons, if_pos (by simpa using hc), ih (fun h' => h (List.mem_cons_of_mem _ h'))]

theorem stripEnd_id {x : Str} (h1 : 10 ∉ x) (h2 : x.getLast? ≠ some 13) : stripEnd x = x := by
  unfold stripEnd
  cases hr : x.reverse with
  | nil => rw [List.reverse_eq_nil_iff] at hr; subst hr; rfl
  | cons c r =>
    have hl : x.getLast? = some c := by rw [← List.head?_reverse, hr]; rfl
    have hc : c ≠ 13 := fun h => h2 (by rw [hl, h])
    have hm : c ∈ x := by rw [← List.mem_reverse, hr]; exact List.mem_cons_self ..
    have hc' : c ≠ 10 := fun h => h1 (by rw [← h]; exact hm)
    rw [List.dropWhile_cons, if_neg (by simp [hc, hc']), ← hr, List.reverse_reverse]

theorem stripEnd_eol {x e : Str} (he : IsEol e) (h1 : 10 ∉ x) (h2 : x.getLast? ≠ some 13) :
    stripEnd (x ++ e) = x := by
  have : stripEnd (x ++ e) = stripEnd x := by
    unfold stripEnd
    rcases he with rfl | rfl <;> simp
  rw [this, stripEnd_id h1 h2]

theorem readLine_good {l e r : Str} (h : GoodLine l e) :
    readLine ⟨l ++ e ++ r, false⟩ = (.line l, ⟨r, false⟩) := by
  have hz : cstr (l ++ e) = l ++ e := by
    apply cstr_id
    rw [List.mem_append, not_or]
    exact ⟨h.noNul, by rcases h.eol with rfl | rfl <;> decide⟩
  have hs := h.short
  have hg : fgets 4095 (l ++ e ++ r) = (l ++ e, r, false) := by
    rcases h.eol with rfl | rfl
    · have := fgets_line 4095 l r h.noLf (by simpa using hs)
      simpa using this
    · have := fgets_line 4095 (l ++ [13]) r (by simp [h.noLf]) (by simpa using hs)
      simpa using this
  have hne : l ++ e ≠ [] := by rcases h.eol with rfl | rfl <;> simp
  unfold readLine
  simp only [hg]
  rw [if_neg (by simp), if_neg hne, hz, stripEnd_eol h.eol h.noLf h.noCr]

/-- The bytes of a file with the given lines and line ends. -/
def fileOf : List (Str × Str) → Str
  | [] => []
  | (l, e) :: ls => l ++ e ++ fileOf ls

theorem readLines_step {f f' : File} {l : Str} (fuel : Nat) (h : readLine f = (.line l, f')) :
    readLines (fuel + 1) f = (readLines fuel f' >>= fun (ls, b) => .ok (l :: ls, b)) := by
  conv => lhs; unfold readLines
  rw [h]

theorem readLines_good : ∀ (ls : List (Str × Str)) (fuel : Nat) (r : Str) (tail : List Str) (b : Bool),
    (∀ p ∈ ls, GoodLine p.1 p.2) → readLines fuel ⟨r, false⟩ = .ok (tail, b) →
    readLines (ls.length + fuel) ⟨fileOf ls ++ r, false⟩ = .ok (ls.map Prod.fst ++ tail, b) := by
  intro ls
  induction ls with
  | nil => intro fuel r tail b _ h; simpa [fileOf] using h
  | cons p ls ih =>
    intro fuel r tail b hg h
    obtain ⟨l, e⟩ := p
    have hr := readLine_good (r := fileOf ls ++ r) (hg (l, e) (List.mem_cons_self ..))
    rw [show ((l, e) :: ls).length + fuel = (ls.length + fuel) + 1 by simp; omega,
      show fileOf ((l, e) :: ls) ++ r = l ++ e ++ (fileOf ls ++ r) by simp [fileOf],
      readLines_step _ hr, ih fuel r tail b (fun p hp => hg p (List.mem_cons_of_mem _ hp)) h]
    rfl

end Verif.Text
