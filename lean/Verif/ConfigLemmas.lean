import Verif.ConfigSpec
import Verif.TextProps

/-!
# Facts about configurations and symbol tables
-/

namespace Verif.Text

open Verif

/-! ## Maps -/

/-- The value of the last pair with the key. -/
def lastOf {α β : Type} [DecidableEq α] : List (α × β) → α → Option β
  | [], _ => none
  | p :: ps, k =>
    match lastOf ps k with
    | some v => some v
    | none => if p.1 = k then some p.2 else none

section
variable {α β : Type} [DecidableEq α]

theorem lastOf_none {ps : List (α × β)} {k : α} : lastOf ps k = none ↔ ∀ p ∈ ps, p.1 ≠ k := by
  induction ps with
  | nil => simp [lastOf]
  | cons p ps ih =>
    unfold lastOf
    cases h : lastOf ps k with
    | some v =>
      simp only [reduceCtorEq, List.mem_cons, forall_eq_or_imp, false_iff, not_and]
      intro _ h'
      rw [ih.2 h'] at h; cases h
    | none =>
      have h' := ih.1 h
      by_cases hp : p.1 = k
      · simp [hp]
      · simpa [hp] using h'

theorem lastOf_some {ps : List (α × β)} {k : α} {v : β} : lastOf ps k = some v ↔ IsLast ps k v := by
  induction ps generalizing v with
  | nil =>
    simp only [lastOf, reduceCtorEq, false_iff]
    rintro ⟨pre, post, h, _⟩
    simp at h
  | cons p ps ih =>
    unfold lastOf
    cases h : lastOf ps k with
    | some u =>
      obtain ⟨pre, post, hps, hpost⟩ := ih.1 h
      constructor
      · intro hv; cases hv
        exact ⟨p :: pre, post, by rw [hps]; rfl, hpost⟩
      · rintro ⟨pre', post', he, hp'⟩
        cases pre' with
        | nil =>
          simp only [List.nil_append, List.cons.injEq] at he
          have : lastOf ps k = none := lastOf_none.2 (by rw [he.2]; exact hp')
          rw [h] at this; cases this
        | cons q pre' =>
          simp only [List.cons_append, List.cons.injEq] at he
          have := ih.2 ⟨pre', post', he.2, hp'⟩
          rw [h] at this; exact this
    | none =>
      have hn := lastOf_none.1 h
      constructor
      · intro hv
        simp only at hv
        split at hv
        · next hk =>
          cases hv; subst hk
          exact ⟨[], ps, rfl, hn⟩
        · cases hv
      · rintro ⟨pre', post', he, hp'⟩
        cases pre' with
        | nil =>
          simp only [List.nil_append, List.cons.injEq] at he
          rw [he.1]; simp
        | cons q pre' =>
          simp only [List.cons_append, List.cons.injEq] at he
          exact absurd rfl (hn (k, v) (by rw [he.2]; simp))

theorem lastOf_snoc (ps : List (α × β)) (p : α × β) (k : α) :
    lastOf (ps ++ [p]) k = if p.1 = k then some p.2 else lastOf ps k := by
  induction ps with
  | nil => simp [lastOf]
  | cons q ps ih =>
    simp only [List.cons_append, lastOf, ih]
    by_cases h : p.1 = k <;> simp [h]

end

theorem mapFind_eq {β : Type} (t : List (Str × β)) (k : Str) : mapFind t k = lastOf t.reverse k := by
  induction t with
  | nil => rfl
  | cons p t ih => rw [List.reverse_cons, lastOf_snoc, ← ih]; rfl

theorem mapFind_append {β : Type} (s t : List (Str × β)) (k : Str) :
    mapFind (s ++ t) k = (mapFind s k).or (mapFind t k) := by
  induction s with
  | nil => simp [mapFind]
  | cons p s ih =>
    simp only [List.cons_append, mapFind, ih]
    by_cases h : p.1 = k <;> simp [h]

/-! ## Lines of a file -/

theorem fgets_append (n : Nat) (s : Str) : (fgets n s).1 ++ (fgets n s).2.1 = s := by
  induction n generalizing s with
  | zero => simp [fgets]
  | succ n ih =>
    cases s with
    | nil => simp [fgets]
    | cons c s =>
      by_cases h : c = 10
      · simp [fgets, h]
      · simp only [fgets, if_neg h]
        rw [List.cons_append, ih]

theorem readLine_line {f f' : File} {l : Str} (h : readLine f = (.line l, f')) :
    f'.rest.length < f.rest.length := by
  unfold readLine at h
  split at h
  · cases h
  · have ha := fgets_append 4095 f.rest
    generalize fgets 4095 f.rest = x at h ha
    obtain ⟨a, b, e⟩ := x
    simp only at h ha
    split at h
    · cases h
    · next hne =>
      cases h
      have := congrArg List.length ha
      rw [List.length_append] at this
      have := length_pos_of_ne_nil hne
      show b.length < _
      omega

theorem readLines_total : ∀ (fuel : Nat) (f : File), f.rest.length < fuel →
    ∃ ls b, readLines fuel f = .ok (ls, b) := by
  intro fuel
  induction fuel with
  | zero => intro f h; omega
  | succ fuel ih =>
    intro f h
    unfold readLines
    cases hr : readLine f with
    | mk r f' =>
      cases r with
      | line l =>
        obtain ⟨ls, b, hl⟩ := ih f' (by have := readLine_line hr; omega)
        exact ⟨l :: ls, b, by simp only [hl]; rfl⟩
      | done => exact ⟨_, _, rfl⟩
      | ioError => exact ⟨_, _, rfl⟩

theorem readLines_mono {x : List Str × Bool} : ∀ (n m : Nat) (f : File), n ≤ m →
    readLines n f = .ok x → readLines m f = .ok x := by
  intro n
  induction n generalizing x with
  | zero => intro m f _ h; cases h
  | succ n ih =>
    intro m f hm h
    obtain ⟨k, rfl⟩ : ∃ k, m = k + 1 := ⟨m - 1, by omega⟩
    unfold readLines at h ⊢
    cases hr : readLine f with
    | mk r f' =>
      rw [hr] at h
      cases r with
      | line l =>
        simp only at h ⊢
        obtain ⟨y, hy, h⟩ := bind_ok h
        rw [ih k f' (by omega) hy, ok_bind]
        exact h
      | done => exact h
      | ioError => exact h

theorem symbolLoop_fold : ∀ (fuel : Nat) (f : File) (t : Symbols) (ls : List Str) (b : Bool),
    readLines fuel f = .ok (ls, b) →
    symbolLoop fuel f t = (ls.foldlM symbolLine t >>= fun t => if b then bad .io else .ok t) := by
  intro fuel
  induction fuel with
  | zero => intro f t ls b h; cases h
  | succ fuel ih =>
    intro f t ls b h
    unfold readLines at h
    unfold symbolLoop
    cases hr : readLine f with
    | mk r f' =>
      rw [hr] at h
      cases r with
      | line l =>
        simp only at h ⊢
        obtain ⟨y, hy, h⟩ := bind_ok h
        obtain ⟨ls', b'⟩ := y
        cases h
        rw [List.foldlM_cons]
        cases hs : symbolLine t l with
        | error e => rfl
        | ok t' => exact ih f' t' ls' _ hy
      | done => cases h; rfl
      | ioError => cases h; rfl

theorem readLine_eof {f : File} (h : f.eof = true) : readLine f = (.ioError, f) := by
  unfold readLine; rw [if_pos h]

theorem configLoop_fold : ∀ (fuel : Nat) (f : File) (t : List (Str × Str)) (ls : List Str) (b : Bool),
    readLines fuel f = .ok (ls, b) →
    configLoop fuel f t = ls.foldlM configLine t := by
  intro fuel
  induction fuel with
  | zero => intro f t ls b h; cases h
  | succ fuel ih =>
    intro f t ls b h
    unfold readLines at h
    unfold configLoop
    by_cases he : f.eof = true
    · rw [readLine_eof he] at h
      cases h
      rw [if_pos he]; rfl
    · rw [if_neg he]
      cases hr : readLine f with
      | mk r f' =>
        rw [hr] at h
        cases r with
        | line l =>
          simp only at h ⊢
          obtain ⟨y, hy, h⟩ := bind_ok h
          obtain ⟨ls', b'⟩ := y
          cases h
          rw [List.foldlM_cons]
          cases hs : configLine t l with
          | error e => rfl
          | ok t' => exact ih f' t' ls' _ hy
        | done => cases h; rfl
        | ioError =>
          unfold readLine at hr
          rw [if_neg he] at hr
          simp only at hr
          split at hr <;> cases hr

/-- Reading lines with the fuel the readers use. -/
theorem readLines_content (content : Str) :
    ∃ ls b, readLines (content.length + 2) ⟨content, false⟩ = .ok (ls, b) :=
  readLines_total _ _ (by show content.length < _; omega)

theorem readLines_fuel {content : Str} {n : Nat} {x : List Str × Bool}
    (h : readLines n ⟨content, false⟩ = .ok x) :
    readLines (content.length + 2) ⟨content, false⟩ = .ok x := by
  obtain ⟨ls, b, hl⟩ := readLines_content content
  have h1 := readLines_mono _ (max n (content.length + 2)) _ (by omega) h
  have h2 := readLines_mono _ (max n (content.length + 2)) _ (by omega) hl
  rw [h1] at h2
  rw [hl]; exact h2.symm

theorem readLines_tail {l : Str} (h : GoodTail l) :
    readLines 2 ⟨l, false⟩ = .ok (if l = [] then ([], false) else ([l], true)) := by
  by_cases hl : l = []
  · subst hl; rfl
  · rw [if_neg hl]
    have := C41_last_line_without_newline [] l (by simp) hl h.noNul h.noLf h.noCr h.short
    simpa using this

theorem flatten_eq_fileOf (ls : List (Str × Str)) : (ls.map (fun p => p.1 ++ p.2)).flatten = fileOf ls := by
  induction ls with
  | nil => rfl
  | cons p ls ih =>
    simp only [List.map_cons, List.flatten_cons, ih]
    rfl

theorem readLines_file (ls : List (Str × Str)) (l : Str) (h : ∀ p ∈ ls, GoodLine p.1 p.2) (hl : GoodTail l) :
    readLines (((ls.map (fun p => p.1 ++ p.2)).flatten ++ l).length + 2)
      ⟨(ls.map (fun p => p.1 ++ p.2)).flatten ++ l, false⟩ =
      .ok (ls.map Prod.fst ++ (if l = [] then [] else [l]), decide (l ≠ [])) := by
  apply readLines_fuel
  rw [flatten_eq_fileOf]
  have := readLines_tail hl
  exact readLines_good ls 2 l (if l = [] then [] else [l]) (decide (l ≠ [])) h (by
    rw [this]; by_cases hl : l = [] <;> simp [hl])

/-! ## Configuration -/

theorem lowerByte_eq (a b : UInt8) : lowerByte a = lowerByte b ↔ CaseEq a b := by
  unfold lowerByte CaseEq
  have ha := a.toNat_lt; have hb := b.toNat_lt
  simp only [UInt8.le_iff_toNat_le, ← UInt8.toNat_inj]
  split <;> split <;> rename_i h1 h2 <;>
    simp only [UInt8.toNat_add, UInt8.reduceToNat] at h1 h2 ⊢ <;> omega

theorem tolower_eq (s t : Str) : tolower s = tolower t ↔ SameKey s t := by
  induction s generalizing t with
  | nil => cases t <;> simp [tolower, SameKey]
  | cons a s ih =>
    cases t with
    | nil => simp [tolower, SameKey]
    | cons b t =>
      have := ih t
      unfold tolower at this
      simp only [tolower, List.map_cons, List.cons.injEq, SameKey, this, lowerByte_eq]

theorem trim_of {s t : Str} (h : IsTrimmed s t) : Io.ofExec (trim s) = .ok t := by
  rw [(C34_trim s t).2 h]; rfl

theorem Tight.trimmed {l s r : Str} (h : Tight s) (hl : ∀ c ∈ l, White c) (hr : ∀ c ∈ r, White c) :
    IsTrimmed (l ++ s ++ r) s := ⟨l, r, rfl, hl, hr, h.1, h.2⟩

theorem not_white_61 : ¬ White 61 := by unfold White; decide
theorem not_white_35 : ¬ White 35 := by unfold White; decide

/-- A table after the definition, if there is one. -/
def addDef (t : List (Str × Str)) : Option (Str × Str) → List (Str × Str)
  | none => t
  | some (k, v) => (tolower k, v) :: t

theorem configLine_mean {l : Str} {o : Option (Str × Str)} (h : ConfLine l o) (t : List (Str × Str)) :
    configLine t l = .ok (addDef t o) := by
  cases h with
  | blank _ h =>
    have : IsTrimmed l [] := ⟨l, [], by simp, h, by simp, by simp, by simp⟩
    unfold configLine
    rw [trim_of this, io_ok_bind, if_pos (Or.inl rfl)]
    rfl
  | comment w r hw =>
    obtain ⟨u, hu, hi⟩ := trim_spec (w ++ 35 :: r)
    have hc : u.head? = some 35 := by
      have := hi.core_eq
      unfold core at this
      have hw' : ∀ c ∈ w, isSpace c = true := fun c hc => (isSpace_iff c).2 (hw c hc)
      have h35 : isSpace 35 = false := by decide
      rw [dropWhile_allSpace w _ hw', dropWhile_head 35 r h35, List.reverse_cons] at this
      rw [← this, List.head?_reverse]
      have hd : ∀ x : Str, (x ++ [35]).dropWhile isSpace = x.dropWhile isSpace ++ [35] := by
        intro x
        induction x with
        | nil => simp [h35]
        | cons c x ih =>
          rw [List.cons_append, List.dropWhile_cons, List.dropWhile_cons, ih]
          cases isSpace c <;> simp
      rw [hd]; simp
    unfold configLine
    rw [hu]
    show (if _ then _ else _) = _
    rw [if_pos (Or.inr hc)]
    rfl
  | define w0 k w1 w2 v w3 h0 h1 h2 h3 hk hv tk tv ek ev hh =>
    have ht : IsTrimmed (w0 ++ k ++ w1 ++ [61] ++ w2 ++ v ++ w3) (k ++ w1 ++ [61] ++ w2 ++ v) := by
      refine ⟨w0, w3, by simp, h0, h3, fun c hc => tk.1 c ?_, fun c hc => tv.2 c ?_⟩
      · rw [← hc]
        cases k with
        | nil => exact absurd rfl hk
        | cons => rfl
      · rw [← hc, List.getLast?_append]
        cases hv' : v.getLast? with
        | none => rw [List.getLast?_eq_none_iff] at hv'; exact absurd hv' hv
        | some x => rfl
    have hne : ¬ (k ++ w1 ++ [61] ++ w2 ++ v = [] ∨ (k ++ w1 ++ [61] ++ w2 ++ v).head? = some 35) := by
      rintro (h | h)
      · simp at h
      · apply hh
        rw [← h]
        cases k with
        | nil => exact absurd rfl hk
        | cons => rfl
    have w61 : ∀ w : Str, (∀ c ∈ w, White c) → 61 ∉ w := fun w hw h => not_white_61 (hw 61 h)
    have hs : split (k ++ w1 ++ [61] ++ w2 ++ v) [61] = .ok [k ++ w1, w2 ++ v] := by
      rw [C35_split_inverts_join]
      refine ⟨?_, Or.inl ⟨by simp [join], by simp [hv]⟩⟩
      intro f hf
      simp only [List.mem_cons, List.not_mem_nil, or_false] at hf
      rcases hf with rfl | rfl
      · rw [List.mem_append, not_or]; exact ⟨ek, w61 w1 h1⟩
      · rw [List.mem_append, not_or]; exact ⟨w61 w2 h2, ev⟩
    unfold configLine
    rw [trim_of ht, io_ok_bind, if_neg hne, hs]
    show (Io.ofExec (trim (k ++ w1)) >>= _) = _
    have e1 : IsTrimmed (k ++ w1) k := by simpa using tk.trimmed (l := []) (by simp) h1
    have e2 : IsTrimmed (w2 ++ v) v := by simpa using tv.trimmed (r := []) h2 (by simp)
    rw [trim_of e1, io_ok_bind, trim_of e2, io_ok_bind, if_neg hv]
    rfl

theorem configFold_mean : ∀ (es : List (Str × Option (Str × Str))) (t : List (Str × Str)),
    (∀ e ∈ es, ConfLine e.1 e.2) →
    (es.map Prod.fst).foldlM configLine t = .ok ((es.map Prod.snd).foldl addDef t) := by
  intro es
  induction es with
  | nil => intro t _; rfl
  | cons e es ih =>
    intro t h
    rw [List.map_cons, List.foldlM_cons, configLine_mean (h e (List.mem_cons_self ..)) t]
    exact ih _ (fun e' he => h e' (List.mem_cons_of_mem _ he))

theorem foldl_addDef (os : List (Option (Str × Str))) (t : List (Str × Str)) :
    os.foldl addDef t = ((os.filterMap id).map (fun p => (tolower p.1, p.2))).reverse ++ t := by
  induction os generalizing t with
  | nil => rfl
  | cons o os ih =>
    rw [List.foldl_cons, ih]
    cases o with
    | none => rfl
    | some p => simp [addDef]

/-- Values in the table are never empty. -/
def NonemptyVals (t : List (Str × Str)) : Prop := ∀ p ∈ t, p.2 ≠ []

theorem configLine_nonempty {t t' : List (Str × Str)} {l : Str} (h : configLine t l = .ok t')
    (ht : NonemptyVals t) : NonemptyVals t' := by
  unfold configLine at h
  obtain ⟨u, _, h⟩ := io_bind_ok h
  split at h
  · cases h; exact ht
  · obtain ⟨fs, _, h⟩ := io_bind_ok h
    split at h
    · obtain ⟨k, _, h⟩ := io_bind_ok h
      obtain ⟨v, _, h⟩ := io_bind_ok h
      split at h
      · cases h
      · next hv =>
        cases h
        intro p hp
        rcases List.mem_cons.1 hp with rfl | hp
        · exact hv
        · exact ht p hp
    · cases h

theorem configFold_nonempty {ls : List Str} {t t' : List (Str × Str)} (h : ls.foldlM configLine t = .ok t')
    (ht : NonemptyVals t) : NonemptyVals t' := by
  induction ls generalizing t with
  | nil => cases h; exact ht
  | cons l ls ih =>
    rw [List.foldlM_cons] at h
    obtain ⟨u, hu, h⟩ := io_bind_ok h
    exact ih h (configLine_nonempty hu ht)

theorem mapFind_mem {β : Type} {t : List (Str × β)} {k : Str} {v : β} (h : mapFind t k = some v) :
    (k, v) ∈ t := by
  induction t with
  | nil => cases h
  | cons p t ih =>
    unfold mapFind at h
    split at h
    · next hk => cases h; subst hk; exact List.mem_cons_self ..
    · exact List.mem_cons_of_mem _ (ih h)

theorem configLine_status (t : List (Str × Str)) (l : Str) :
    (∃ t', configLine t l = .ok t') ∨ configLine t l = bad .corruption := by
  obtain ⟨u, hu, _⟩ := trim_spec l
  have hu' : Io.ofExec (trim l) = .ok u := by rw [hu]; rfl
  unfold configLine
  rw [hu', io_ok_bind]
  split
  · exact Or.inl ⟨_, rfl⟩
  · obtain ⟨fs, hf, _⟩ := C35_split u [61] (by simp)
    have hf' : Io.ofExec (split u [61]) = .ok fs := by rw [hf]; rfl
    rw [hf', io_ok_bind]
    split
    · next k v _ =>
      obtain ⟨k', hk, _⟩ := trim_spec k
      obtain ⟨v', hv, _⟩ := trim_spec v
      have hk' : Io.ofExec (trim k) = .ok k' := by rw [hk]; rfl
      have hv' : Io.ofExec (trim v) = .ok v' := by rw [hv]; rfl
      rw [hk', io_ok_bind, hv', io_ok_bind]
      split
      · exact Or.inr rfl
      · exact Or.inl ⟨_, rfl⟩
    · exact Or.inr rfl

theorem configFold_status (ls : List Str) (t : List (Str × Str)) :
    (∃ t', ls.foldlM configLine t = .ok t') ∨ ls.foldlM configLine t = bad .corruption := by
  induction ls generalizing t with
  | nil => exact Or.inl ⟨t, rfl⟩
  | cons l ls ih =>
    rw [List.foldlM_cons]
    rcases configLine_status t l with ⟨t', h⟩ | h
    · rw [h]; exact ih t'
    · rw [h]; exact Or.inr rfl

theorem rfindSlash_none {s : Str} (h : 47 ∉ s) : rfindSlash s = none := by
  induction s with
  | nil => rfl
  | cons c s ih =>
    unfold rfindSlash
    rw [ih (fun h' => h (List.mem_cons_of_mem _ h'))]
    exact if_neg (fun hc => h (by rw [hc]; exact List.mem_cons_self ..))

theorem rfindSlash_some {d b : Str} (h : 47 ∉ b) : rfindSlash (d ++ 47 :: b) = some d.length := by
  induction d with
  | nil =>
    simp only [List.nil_append, rfindSlash, rfindSlash_none h]
    rfl
  | cons c d ih => simp only [List.cons_append, rfindSlash, ih]; rfl

end Verif.Text
