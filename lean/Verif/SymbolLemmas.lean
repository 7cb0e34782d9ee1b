import Verif.ConfigLemmas

/-!
# Facts about number parsing and symbol tables
-/

namespace Verif.Text

open Verif

/-! ## Numbers -/

/-- A decimal digit. -/
def Dec (c : UInt8) : Prop := 48 ≤ c ∧ c ≤ 57

theorem Dec.nat {c : UInt8} (h : Dec c) : 48 ≤ c.toNat ∧ c.toNat ≤ 57 := by
  unfold Dec at h
  simpa [UInt8.le_iff_toNat_le] using h

theorem Dec.val {c : UInt8} (h : Dec c) : digitVal c = some (c.toNat - 48) := by
  unfold digitVal; exact if_pos h

theorem Dec.digit {c : UInt8} (h : Dec c) : isDigit 10 c = true := by
  unfold isDigit
  have := h.nat
  simp only [h.val, decide_eq_true_eq]
  omega

theorem Dec.ne {c : UInt8} (h : Dec c) (x : UInt8) (hx : x.toNat < 48 ∨ 57 < x.toNat) : c ≠ x := by
  rintro rfl
  have := h.nat
  omega

theorem Dec.notWhite {c : UInt8} (h : Dec c) : ¬ White c := by
  intro hw
  have := h.nat
  unfold White at hw
  simp only [List.mem_cons, List.not_mem_nil, or_false] at hw
  rcases hw with rfl | rfl | rfl | rfl | rfl | rfl <;> simp at this

theorem Dec.notSpace {c : UInt8} (h : Dec c) : isSpace c = false := by
  cases hs : isSpace c with
  | false => rfl
  | true => exact absurd ((isSpace_iff c).1 hs) h.notWhite

theorem digits_dec : ∀ (x : Str) (acc : Nat), (∀ c ∈ x, Dec c) →
    digits 10 acc x = (x.foldl (fun n c => n * 10 + (c.toNat - 48)) acc, []) := by
  intro x
  induction x with
  | nil => intro acc _; rfl
  | cons c x ih =>
    intro acc h
    have hc := h c (List.mem_cons_self ..)
    unfold digits
    rw [if_pos hc.digit, hc.val, ih _ (fun c hc => h c (List.mem_cons_of_mem _ hc))]
    rfl

theorem chooseBase_ten {x : Str} (h : x.head? ≠ some 48) : chooseBase x = (10, x) := by
  cases x with
  | nil => rfl
  | cons c x =>
    have hc : c ≠ 48 := fun h' => h (by rw [h']; rfl)
    cases x with
    | nil => simp [chooseBase, hc]
    | cons d x =>
      cases x with
      | nil => simp [chooseBase, hc]
      | cons e x => simp [chooseBase, hc]

theorem clamp_id {n : Int} (h : -(2 ^ 63) ≤ n) (h' : n < 2 ^ 63) : clamp 64 n = n := by
  unfold clamp
  rw [if_neg (by simp only [Nat.reduceSub]; omega), if_neg (by simp only [Nat.reduceSub]; omega)]

theorem sign_dec {c : UInt8} {x : Str} (h : Dec c) : sign (c :: x) = (false, c :: x) := by
  unfold sign
  rw [dropWhile_head c x h.notSpace]
  simp only
  rw [if_neg (h.ne 45 (by decide)), if_neg (h.ne 43 (by decide))]

theorem sign_minus (x : Str) : sign (45 :: x) = (true, x) := by
  unfold sign
  rw [dropWhile_head 45 x (by decide)]
  simp

/-- The number and its sign, once sign and base are clear. -/
theorem strtol0_dec {s x : Str} {n : Nat} {neg : Bool} (hs : sign s = (neg, x)) (h : Decimal x n) :
    strtol0 s = (clamp 64 (if neg then -(n : Int) else n), []) := by
  obtain ⟨hne, hd, hz, hv⟩ := h
  unfold strtol0
  rw [hs]
  rcases hz with rfl | hz
  · have hn : n = 0 := by rw [← hv]; rfl
    subst hn
    have h1 : chooseBase [48] = (8, [48]) := by decide
    have h2 : isDigit 8 48 = true := by decide
    have h3 : digits 8 0 [48] = (0, []) := by decide
    simp only [h1, h2, h3, if_true]
  · simp only [chooseBase_ten hz]
    cases x with
    | nil => exact absurd rfl hne
    | cons c x =>
      have hc : Dec c := hd c (List.mem_cons_self ..)
      simp only [hc.digit, if_true]
      rw [digits_dec (c :: x) 0 hd]
      have : (c :: x).foldl (fun n c => n * 10 + (c.toNat - 48)) 0 = n := hv
      rw [this]

theorem Decimal.noNul {x : Str} {n : Nat} (h : Decimal x n) : 0 ∉ x := fun h0 =>
  (Dec.ne (h.2.1 0 h0) 0 (by decide)) rfl

theorem Decimal.noBlank {x : Str} {n : Nat} (h : Decimal x n) : 32 ∉ x := fun h0 =>
  (Dec.ne (h.2.1 32 h0) 32 (by decide)) rfl

theorem Decimal.tight {x : Str} {n : Nat} (h : Decimal x n) : Tight x :=
  ⟨fun c hc => Dec.notWhite (h.2.1 c (List.mem_of_head? hc)),
   fun c hc => Dec.notWhite (h.2.1 c (List.mem_of_getLast? hc))⟩

theorem stringToLong_of {s : Str} {v : Int} (ht : Tight s) (h0 : 0 ∉ s) (h : strtol0 s = (v, [])) :
    stringToLong s = .ok v := by
  have := ht.trimmed (l := []) (r := []) (by simp) (by simp)
  simp only [List.nil_append, List.append_nil] at this
  unfold stringToLong
  rw [trim_of this, io_ok_bind, cstr_id h0, h]
  rfl

theorem stringToLong_dec {x : Str} {n : Nat} (h : Decimal x n) (hn : n < 2 ^ 63) :
    stringToLong x = .ok (n : Int) := by
  have hs : sign x = (false, x) := by
    cases x with
    | nil => exact absurd rfl h.1
    | cons c x => exact sign_dec (h.2.1 c (List.mem_cons_self ..))
  apply stringToLong_of h.tight h.noNul
  rw [strtol0_dec hs h, clamp_id]
  · rfl
  · simp only [Bool.false_eq_true, if_false]; omega
  · simp only [Bool.false_eq_true, if_false]; omega

theorem tight_minus {x : Str} {n : Nat} (h : Decimal x n) : Tight (45 :: x) := by
  refine ⟨fun c hc => ?_, fun c hc => ?_⟩
  · cases hc; unfold White; decide
  · obtain ⟨ys, y, hy⟩ : ∃ ys y, x = ys ++ [y] := ⟨_, _, (List.dropLast_concat_getLast h.1).symm⟩
    subst hy
    rw [← List.cons_append, List.getLast?_concat] at hc
    cases hc
    exact h.tight.2 _ (by simp)

theorem stringToLong_neg {x : Str} {n : Nat} (h : Decimal x n) :
    stringToLong (45 :: x) = .ok (clamp 64 (-(n : Int))) := by
  apply stringToLong_of (tight_minus h)
  · intro h0
    rcases List.mem_cons.1 h0 with h0 | h0
    · cases h0
    · exact h.noNul h0
  · rw [strtol0_dec (sign_minus x) h]
    rfl

theorem clamp_range (x : Int) : -(2 ^ 63) ≤ clamp 64 x ∧ clamp 64 x < 2 ^ 63 := by
  unfold clamp
  simp only [Nat.reduceSub]
  split
  · omega
  · split <;> omega

theorem strtol0_range (s : Str) : -(2 ^ 63) ≤ (strtol0 s).1 ∧ (strtol0 s).1 < 2 ^ 63 := by
  unfold strtol0
  generalize sign s = p
  obtain ⟨neg, t⟩ := p
  simp only
  generalize chooseBase t = q
  obtain ⟨base, u⟩ := q
  simp only
  cases u with
  | nil => simp
  | cons c u =>
    simp only
    split
    · exact clamp_range _
    · simp

theorem stringToLong_range {s : Str} {v : Int} (h : stringToLong s = .ok v) : -(2 ^ 63) ≤ v ∧ v < 2 ^ 63 := by
  unfold stringToLong at h
  obtain ⟨t, _, h⟩ := io_bind_ok h
  have := strtol0_range (cstr t)
  generalize strtol0 (cstr t) = p at h this
  obtain ⟨a, b⟩ := p
  simp only at h this
  split at h
  · cases h
  · cases h; exact this

/-! ## Symbol tables -/

/-- The id of an entry first, for lookup by id. -/
def swapped (es : List (Str × Int)) : List (Int × Str) := es.map (fun p => (p.2, p.1))

/-- The table holds the entries. -/
structure TInv (es : List (Str × Int)) (t : Symbols) : Prop where
  range : ∀ p ∈ es, 0 ≤ p.2 ∧ p.2 < t.words.length
  top : t.words.length = 0 ∨ ∃ p ∈ es, p.2 + 1 = t.words.length
  word : ∀ i : Nat, i < t.words.length → t.words[i]? = some ((lastOf (swapped es) (i : Int)).getD [])
  id : ∀ w, mapFind t.ids w = (lastOf es w).map wrap32

theorem growWords_ok {words ws : List Str} {id : Int} (h0 : 0 ≤ id) (h1 : id < 2 ^ 63)
    (h : growWords words id = .ok ws) :
    ws = words ++ List.replicate (id.toNat + 1 - words.length) [] := by
  unfold growWords at h
  rw [Int.emod_eq_of_lt h0 (by omega)] at h
  split at h
  · next hl =>
    split at h
    · cases h
    · next hne =>
      unfold resizeWords at h
      rw [Int.emod_eq_of_lt (by omega) (by omega)] at h
      simp only at h
      split at h
      · cases h
      · cases h
        rw [List.take_of_length_le (by omega)]
        congr 2; omega
  · next hl =>
    cases h
    rw [show id.toNat + 1 - words.length = 0 by omega]; simp

theorem growWords_small {words : List Str} {id : Int} (h0 : 0 ≤ id) (h1 : id < 2147483648) :
    ∃ ws, growWords words id = .ok ws := by
  unfold growWords
  rw [Int.emod_eq_of_lt h0 (by omega)]
  split
  · rw [if_neg (by omega)]
    unfold resizeWords
    rw [Int.emod_eq_of_lt (by omega) (by omega)]
    simp only
    rw [if_neg (by omega)]
    exact ⟨_, rfl⟩
  · exact ⟨_, rfl⟩

theorem TInv.step {es : List (Str × Int)} {t t' : Symbols} (h : TInv es t) {w : Str} {id : Int} {ws us : List Str}
    (h1 : id < 2 ^ 63) (hg : growWords t.words id = .ok ws) (hu : aset ws id w = .ok us)
    (ht : t' = { t with words := us, ids := (w, wrap32 id) :: t.ids }) :
    0 ≤ id ∧ TInv (es ++ [(w, id)]) t' := by
  obtain ⟨h0, hlt, hset⟩ := aset_ok hu
  refine ⟨h0, ?_⟩
  have hws := growWords_ok h0 h1 hg
  have hlen : us.length = max t.words.length (id.toNat + 1) := by
    rw [hset, List.length_set, hws, List.length_append, List.length_replicate]; omega
  subst ht
  refine ⟨?_, ?_, ?_, ?_⟩
  · intro p hp
    simp only [hlen]
    rcases List.mem_append.1 hp with hp | hp
    · have := h.range p hp; omega
    · rw [List.mem_singleton] at hp; subst hp; exact ⟨h0, by omega⟩
  · simp only [hlen]
    right
    by_cases hb : t.words.length ≤ id.toNat + 1
    · exact ⟨(w, id), by simp, by simp only; omega⟩
    · rcases h.top with ht | ⟨p, hp, ht⟩
      · omega
      · exact ⟨p, by simp [hp], by omega⟩
  · intro i hi
    simp only [hlen] at hi
    simp only [hset, swapped, List.map_append, List.map_cons, List.map_nil]
    rw [lastOf_snoc, List.getElem?_set]
    by_cases hid : id.toNat = i
    · rw [if_pos hid, if_pos (by rw [hws, List.length_append, List.length_replicate]; omega)]
      rw [if_pos (by simp only; omega)]
      rfl
    · rw [if_neg hid, if_neg (by simp only; omega), hws]
      by_cases hl : i < t.words.length
      · rw [List.getElem?_append_left hl]; exact h.word i hl
      · rw [List.getElem?_append_right (by omega), List.getElem?_replicate, if_pos (by omega)]
        have hn : lastOf (es.map fun p => (p.2, p.1)) (i : Int) = none := by
          rw [lastOf_none]
          intro p hp
          obtain ⟨q, hq, rfl⟩ := List.mem_map.1 hp
          have := h.range q hq
          simp only; omega
        rw [hn]; rfl
  · intro v
    rw [lastOf_snoc]
    simp only [mapFind]
    by_cases hv : w = v
    · rw [if_pos hv, if_pos hv]; rfl
    · rw [if_neg hv, if_neg hv]; exact h.id v

theorem TInv.consistent {es : List (Str × Int)} {t : Symbols} (h : TInv es t) : Consistent t es := by
  have hget : ∀ i : Nat, i < t.words.length → t.get i = .ok (cstr ((lastOf (swapped es) (i : Int)).getD [])) := by
    intro i hi
    apply symGet_some
    unfold word?
    rw [if_pos (by omega), Int.toNat_natCast, h.word i hi]
    rfl
  refine ⟨?_, ?_, ?_, ?_, ?_⟩
  · intro w id hl
    have hl' := lastOf_some.2 hl
    obtain ⟨pre, post, he, _⟩ := hl
    have hm : (id, w) ∈ es.map (fun p => (p.2, p.1)) := by rw [he]; simp
    obtain ⟨p, hp, hpe⟩ := List.mem_map.1 hm
    have hr := h.range p hp
    have hid : p.2 = id := congrArg Prod.fst hpe
    have := hget id.toNat (by omega)
    rw [Int.toNat_of_nonneg (by omega)] at this
    rw [this]
    unfold swapped
    rw [hl']; rfl
  · rintro id h0 hno ⟨p, hp, hlt⟩
    have hr := h.range p hp
    have := hget id.toNat (by omega)
    rw [Int.toNat_of_nonneg h0] at this
    have hn : lastOf (swapped es) id = none := by
      rw [lastOf_none]
      intro q hq
      obtain ⟨r, hr, rfl⟩ := List.mem_map.1 hq
      exact hno r hr
    rw [this, hn]; rfl
  · intro id ho
    apply symGet_none
    unfold word?
    split
    · next h0 =>
      rcases ho with ho | ho
      · omega
      · have : t.words.length ≤ id.toNat := by
          rcases h.top with ht | ⟨p, hp, ht⟩
          · omega
          · have := ho p hp; omega
        rw [List.getElem?_eq_none this]; rfl
    · rfl
  · intro w id hl
    unfold Symbols.getId
    rw [h.id w, lastOf_some.2 hl]
    rfl
  · intro w hno
    unfold Symbols.getId
    rw [h.id w, lastOf_none.2 hno]
    rfl

theorem symbolLine_ok {t t' : Symbols} {l : Str} (h : symbolLine t l = .ok t') :
    ∃ w x id ws us, split l [32] = .ok [w, x] ∧ stringToLong x = .ok id ∧
      growWords t.words id = .ok ws ∧ aset ws id w = .ok us ∧
      t' = { t with words := us, ids := (w, wrap32 id) :: t.ids } := by
  unfold symbolLine at h
  obtain ⟨fs, hf, h⟩ := io_bind_ok h
  have ofOk : ∀ {α : Type} {e : Exec α} {a : α}, Io.ofExec e = .ok a → e = .ok a := by
    intro α e a h
    cases e with
    | ok b => cases h; rfl
    | error => cases h
  have hf' := ofOk hf
  split at h
  · next w x =>
    obtain ⟨id, hid, h⟩ := io_bind_ok h
    obtain ⟨ws, hw, h⟩ := io_bind_ok h
    obtain ⟨us, hu, h⟩ := io_bind_ok h
    cases h
    exact ⟨w, x, id, ws, us, hf', hid, ofOk hw, ofOk hu, rfl⟩
  · cases h

/-- What a line of a symbol file means. -/
def SymLine (l w : Str) (id : Int) : Prop :=
  ∃ x, 32 ∉ w ∧ 32 ∉ x ∧ (l = w ++ [32] ++ x ∧ x ≠ [] ∨ l = w ++ [32] ++ x ++ [32]) ∧ stringToLong x = .ok id

theorem symLine_of_split {l w x : Str} {id : Int} (h : split l [32] = .ok [w, x])
    (hx : stringToLong x = .ok id) : SymLine l w id := by
  obtain ⟨hfree, h⟩ := (C35_split_inverts_join 32 l [w, x]).1 h
  refine ⟨x, hfree w (by simp), hfree x (by simp), ?_, hx⟩
  rcases h with ⟨h, hl⟩ | ⟨h, _⟩
  · left; exact ⟨by rw [h]; simp [join], by simpa using hl⟩
  · right; rw [h]; simp [join]

theorem symbolFold_inv : ∀ (ls : List Str) (es : List (Str × Int)) (t t' : Symbols),
    TInv es t → ls.foldlM symbolLine t = .ok t' →
    ∃ ds : List (Str × Int), ls.length = ds.length ∧
      (∀ p ∈ ls.zip ds, SymLine p.1 p.2.1 p.2.2) ∧ (∀ d ∈ ds, 0 ≤ d.2) ∧ TInv (es ++ ds) t' := by
  intro ls
  induction ls with
  | nil => intro es t t' h hf; cases hf; exact ⟨[], rfl, by simp, by simp, by simpa using h⟩
  | cons l ls ih =>
    intro es t t' h hf
    rw [List.foldlM_cons] at hf
    obtain ⟨t1, h1, hf⟩ := io_bind_ok hf
    obtain ⟨w, x, id, ws, us, hs, hx, hg, hu, ht⟩ := symbolLine_ok h1
    obtain ⟨h0, hi⟩ := h.step (stringToLong_range hx).2 hg hu ht
    obtain ⟨ds, hl, hz, hp, hi'⟩ := ih (es ++ [(w, id)]) t1 t' hi hf
    refine ⟨(w, id) :: ds, by simp [hl], ?_, ?_, by simpa using hi'⟩
    · intro p hp'
      simp only [List.zip_cons_cons, List.mem_cons] at hp'
      rcases hp' with rfl | hp'
      · exact symLine_of_split hs hx
      · exact hz p hp'
    · intro d hd
      rcases List.mem_cons.1 hd with rfl | hd
      · exact h0
      · exact hp d hd

theorem TInv.empty : TInv [] ⟨[], [], 0, 0⟩ :=
  ⟨by simp, Or.inl rfl, fun i hi => by simp at hi, fun w => rfl⟩

theorem split_entry {w x : Str} (hw : 32 ∉ w) (hx : 32 ∉ x) (hne : x ≠ []) :
    split (w ++ [32] ++ x) [32] = .ok [w, x] := by
  rw [C35_split_inverts_join]
  refine ⟨?_, Or.inl ⟨by simp [join], by simp [hne]⟩⟩
  intro f hf
  simp only [List.mem_cons, List.not_mem_nil, or_false] at hf
  rcases hf with rfl | rfl <;> assumption

theorem symbolLine_entry (t : Symbols) (e : SymEntry) (h : e.Ok) : ∃ t', symbolLine t e.line = .ok t' ∧
    ∀ es, TInv es t → TInv (es ++ [(e.word, (e.id : Int))]) t' := by
  have hs := split_entry h.noBlank h.dec.noBlank h.dec.1
  have hx := stringToLong_dec h.dec (by have := h.small; omega)
  obtain ⟨ws, hg⟩ := growWords_small (words := t.words) (id := (e.id : Int)) (by omega) (by have := h.small; omega)
  have hws := growWords_ok (by omega) (by have := h.small; omega) hg
  have hu : aset ws (e.id : Int) e.word = .ok (ws.set e.id e.word) := aset_nat (by
    rw [hws, List.length_append, List.length_replicate]; omega)
  refine ⟨_, ?_, fun es hi => (hi.step (by have := h.small; omega) hg hu rfl).2⟩
  unfold symbolLine SymEntry.line
  rw [hs]
  show (stringToLong e.num >>= _) = _
  rw [hx, io_ok_bind, hg]
  show (Io.ofExec (aset ws (e.id : Int) e.word) >>= _) = _
  rw [hu]
  rfl

theorem symbolFold_entries : ∀ (es : List SymEntry) (t : Symbols) (ds : List (Str × Int)),
    (∀ e ∈ es, e.Ok) → TInv ds t → ∃ t', (es.map SymEntry.line).foldlM symbolLine t = .ok t' ∧
      TInv (ds ++ es.map (fun e => (e.word, (e.id : Int)))) t' := by
  intro es
  induction es with
  | nil => intro t ds _ h; exact ⟨t, rfl, by simpa using h⟩
  | cons e es ih =>
    intro t ds hg h
    obtain ⟨t1, h1, h2⟩ := symbolLine_entry t e (hg e (List.mem_cons_self ..))
    obtain ⟨t2, h3, h4⟩ := ih t1 _ (fun e' he => hg e' (List.mem_cons_of_mem _ he)) (h2 ds h)
    refine ⟨t2, ?_, by simpa using h4⟩
    rw [List.map_cons, List.foldlM_cons, h1]
    exact h3

end Verif.Text
