import Verif.VecMemSpec
import Verif.MatrixLemmas

/-!
# Vectors in memory: lemmas
-/

namespace Verif.VecMem

open Mat (Heap Addr load poke alloc free loop memset0 memcpy peek loop_inv)

variable {F : Type}

/-! ## Blocks -/

theorem poke_block {h : Heap F} {b : Nat} {l : List (Option F)} (hb : h[b]? = some (some l)) {i : Nat} (hi : i < l.length)
    (c : Option F) : poke h ⟨b, i⟩ c = .ok (h.set b (some (l.set i c))) := by
  unfold poke
  simp only [hb]
  rw [if_pos ⟨by omega, by omega⟩]
  rfl

theorem peek_block' {h : Heap F} {b : Nat} {l : List (Option F)} (hb : h[b]? = some (some l)) {i : Nat} {c : Option F}
    (hi : l[i]? = some c) : peek h ⟨b, i⟩ = some c := by
  unfold peek
  simp only [hb]
  rw [if_pos (by omega)]
  exact hi

theorem load_block {h : Heap F} {b : Nat} {l : List (Option F)} (hb : h[b]? = some (some l)) {i : Nat} {x : F}
    (hi : l[i]? = some (some x)) : load h ⟨b, i⟩ = .ok x := by
  unfold load
  rw [peek_block' hb hi]

/-- Part of a list is replaced. -/
def patch (l : List (Option F)) (o : Nat) (c : List (Option F)) : List (Option F) := l.take o ++ c ++ l.drop (o + c.length)

theorem patch_length (l : List (Option F)) {o : Nat} {c : List (Option F)} (h : o + c.length ≤ l.length) :
    (patch l o c).length = l.length := by
  unfold patch
  simp only [List.length_append, List.length_take, List.length_drop]
  omega

theorem patch_get (l : List (Option F)) {o : Nat} {c : List (Option F)} (h : o + c.length ≤ l.length) (i : Nat) :
    (patch l o c)[i]? = if i < o then l[i]? else if i < o + c.length then c[i - o]? else l[i]? := by
  unfold patch
  simp only [List.getElem?_append, List.length_append, List.length_take, List.getElem?_take, List.getElem?_drop]
  have hm : min o l.length = o := by omega
  rw [hm]
  by_cases h1 : i < o
  · rw [if_pos (by omega), if_pos h1, if_pos h1, if_pos h1]
  · by_cases h2 : i < o + c.length
    · rw [if_pos h2, if_neg h1, if_neg h1, if_pos h2]
    · rw [if_neg h2, if_neg h1, if_neg h2]
      congr 1
      omega

theorem patch_snoc (l : List (Option F)) {o n : Nat} {c : List (Option F)} {x : Option F} (hn : c[n]? = some x)
    (h : o + c.length ≤ l.length) : (patch l o (c.take n)).set (o + n) x = patch l o (c.take (n + 1)) := by
  have hl : n < c.length := (List.getElem?_eq_some_iff.mp hn).1
  have e1 : (c.take n).length = n := by rw [List.length_take]; omega
  have e2 : (c.take (n + 1)).length = n + 1 := by rw [List.length_take]; omega
  apply List.ext_getElem?
  intro i
  rw [List.getElem?_set, patch_get _ (by omega), patch_get _ (by omega), patch_length _ (by omega), e1, e2]
  by_cases h1 : o + n = i
  · rw [if_pos h1, if_pos (by omega), if_neg (by omega), if_pos (by omega), List.getElem?_take, if_pos (by omega),
      show i - o = n by omega, hn]
  · rw [if_neg h1]
    by_cases h2 : i < o
    · rw [if_pos h2, if_pos h2]
    · rw [if_neg h2, if_neg h2]
      by_cases h3 : i < o + n
      · rw [if_pos h3, if_pos (by omega), List.getElem?_take, List.getElem?_take, if_pos (by omega), if_pos (by omega)]
      · rw [if_neg h3, if_neg (by omega)]

theorem patch_nil (l : List (Option F)) (o : Nat) : patch l o [] = l := by
  unfold patch
  rw [List.append_nil, List.length_nil, Nat.add_zero, List.take_append_drop]

theorem patch_all (l c : List (Option F)) (h : c.length = l.length) : patch l 0 c = c := by
  unfold patch
  rw [List.take_zero, Nat.zero_add, h, List.drop_length, List.append_nil]
  rfl

/-- A loop that writes `c` into a block. -/
theorem loop_write {f : Int → Heap F → Exec (Heap F)} {h : Heap F} {b o : Nat} {l c : List (Option F)}
    (hb : h[b]? = some (some l)) (hc : o + c.length ≤ l.length)
    (hf : ∀ (i : Nat) (x : Option F) (k : List (Option F)), c[i]? = some x → k.length = l.length →
      (h.set b (some k))[b]? = some (some k) →
      f i (h.set b (some k)) = poke (h.set b (some k)) ⟨b, (o + i : Nat)⟩ x) :
    loop c.length f h = .ok (h.set b (some (patch l o c))) := by
  have hlt : b < h.length := (List.getElem?_eq_some_iff.mp hb).1
  have hset : ∀ k : List (Option F), (h.set b (some k))[b]? = some (some k) := fun k => by
    rw [List.getElem?_set_self hlt]
  obtain ⟨h', e, p⟩ := loop_inv (f := f)
    (fun i h1 => ∃ n : Nat, i = n ∧ h1 = h.set b (some (patch l o (c.take n)))) c.length h (by omega)
    ⟨0, rfl, by
      rw [List.take_zero, patch_nil]
      apply List.ext_getElem?
      intro i
      by_cases hi : b = i
      · rw [← hi, hb, hset]
      · rw [List.getElem?_set_ne hi]⟩ (by
      rintro i h1 h0 h2 ⟨n, rfl, rfl⟩
      have hn : n < c.length := by omega
      have hx := List.getElem?_eq_getElem hn
      have hle : o + (c.take n).length ≤ l.length := by rw [List.length_take]; omega
      refine ⟨_, (hf n _ _ hx (patch_length _ hle) (hset _)).trans
        (poke_block (hset _) (by rw [patch_length _ hle]; omega) _), n + 1, rfl, ?_⟩
      rw [List.set_set, patch_snoc l hx hc])
  obtain ⟨n, hn, rfl⟩ := p
  rw [e, show n = c.length by omega, List.take_length]

theorem memset_block {h : Heap F} {b o n : Nat} {l : List (Option F)} (zero : F) (hb : h[b]? = some (some l))
    (hc : o + n ≤ l.length) :
    memset0 zero (some ⟨b, o⟩) n h = .ok (h.set b (some (patch l o (List.replicate n (some zero))))) := by
  have := loop_write (f := fun i h => poke h ⟨b, (o : Int) + i⟩ (some zero)) (c := List.replicate n (some zero)) hb
    (by rw [List.length_replicate]; exact hc) (by
      intro i x k hx _ _
      rw [List.getElem?_replicate] at hx
      split at hx
      · cases hx
        rfl
      · cases hx)
  rw [List.length_replicate] at this
  exact this

theorem memcpy_block {h : Heap F} {b a n : Nat} {l k : List (Option F)} (hne : b ≠ a) (hb : h[b]? = some (some l))
    (ha : h[a]? = some (some k)) (h1 : n ≤ l.length) (h2 : n ≤ k.length) :
    memcpy ⟨b, 0⟩ ⟨a, 0⟩ n h = .ok (h.set b (some (patch l 0 (k.take n)))) := by
  unfold memcpy
  simp only
  rw [if_neg (fun g => hne g.1)]
  have hl : (k.take n).length = n := by rw [List.length_take]; omega
  have := loop_write (f := fun i h => match peek h ⟨a, 0 + i⟩ with | some c => poke h ⟨b, 0 + i⟩ c | none => .error .ub)
    (c := k.take n) (o := 0) hb (by omega) (by
      intro i x m hx _ _
      rw [List.getElem?_take] at hx
      split at hx
      · have : peek (h.set b (some m)) ⟨a, i⟩ = some x :=
          peek_block' (by rw [List.getElem?_set_ne hne]; exact ha) hx
        rw [Int.zero_add, this, Nat.zero_add]
      · cases hx)
  rw [hl] at this
  exact this

/-! ## Owning -/

theorem Own.dim {h : Heap F} {v : Vec} {l : List (Option F)} (o : Own h v l) : v.dim = l.length := by
  rcases o with ⟨rfl, rfl⟩ | ⟨b, -, h2, -, -⟩
  · rfl
  · exact h2

theorem Own.block {h : Heap F} {v : Vec} {l : List (Option F)} (o : Own h v l) {a : Addr} (ha : v.data = some a) :
    a.off = 0 ∧ h[a.block]? = some (some l) ∧ l ≠ [] := by
  rcases o with ⟨rfl, rfl⟩ | ⟨b, h1, -, h3, h4⟩
  · cases ha
  · rw [ha] at h1
    cases h1
    exact ⟨rfl, h4, h3⟩

theorem Own.none_iff {h : Heap F} {v : Vec} {l : List (Option F)} (o : Own h v l) : v.data = none ↔ l = [] := by
  rcases o with ⟨rfl, rfl⟩ | ⟨b, h1, -, h3, -⟩
  · exact ⟨fun _ => rfl, fun _ => rfl⟩
  · rw [h1]
    exact ⟨fun g => (by cases g), fun g => absurd g h3⟩

/-- An operation on the vector `v` leaves the vector `v'`, and touches no other block. -/
structure Chg (h : Heap F) (v : Vec) (h' : Heap F) (v' : Vec) (l' : List (Option F)) : Prop where
  own : Own h' v' l'
  len : h.length ≤ h'.length
  frame : ∀ b, (∀ a, v.data = some a → a.block ≠ b) → b < h.length → h'[b]? = h[b]?
  blk : ∀ a, v'.data = some a → v.data = some a ∨ h.length ≤ a.block
  live : ∀ b c, h'[b]? = some (some c) →
    (∃ a, v'.data = some a ∧ a.block = b) ∨ (b < h.length ∧ ∀ a, v.data = some a → a.block ≠ b)

/-- The contents of the block are replaced. -/
theorem Chg.contents {h : Heap F} {v : Vec} {l l' : List (Option F)} {b : Nat} (hd : v.data = some ⟨b, 0⟩)
    (ho : Own h v l) (hl : l'.length = l.length) : Chg h v (h.set b (some l')) v l' := by
  obtain ⟨-, hb, hne⟩ := ho.block hd
  have hlt : b < h.length := (List.getElem?_eq_some_iff.mp hb).1
  have hne' : l' ≠ [] := fun e => hne (List.length_eq_zero_iff.mp (by rw [← hl, e]; rfl))
  refine ⟨.inr ⟨b, hd, by rw [hl]; exact ho.dim, hne', List.getElem?_set_self hlt⟩, ?_, ?_, fun a ha => .inl ha, ?_⟩
  · rw [List.length_set]; omega
  · intro c hc _
    exact List.getElem?_set_ne (hc _ hd)
  · intro c x hx
    by_cases hcb : b = c
    · exact .inl ⟨_, hd, hcb⟩
    · rw [List.getElem?_set_ne hcb] at hx
      exact .inr ⟨(List.getElem?_eq_some_iff.mp hx).1, fun a ha => by rw [hd] at ha; cases ha; exact hcb⟩

theorem destroy_chg {h : Heap F} {v : Vec} {l : List (Option F)} (ho : Own h v l) :
    ∃ h', destroy v h = .ok h' ∧ h'.length = h.length ∧ Chg h v h' .empty [] := by
  rcases ho with ⟨rfl, rfl⟩ | ⟨b, h1, h2, h3, h4⟩
  · exact ⟨h, rfl, rfl, .inl ⟨rfl, rfl⟩, Nat.le_refl _, fun _ _ _ => rfl, fun _ ha => (by cases ha),
      fun b c hc => .inr ⟨(List.getElem?_eq_some_iff.mp hc).1, fun _ ha => (by cases ha)⟩⟩
  · have hlt : b < h.length := (List.getElem?_eq_some_iff.mp h4).1
    refine ⟨h.set b none, ?_, List.length_set, .inl ⟨rfl, rfl⟩, by rw [List.length_set]; omega, ?_, fun _ ha => (by cases ha), ?_⟩
    · unfold destroy free
      rw [h1]
      simp only [h4]
      rfl
    · intro c hc _
      exact List.getElem?_set_ne (hc _ h1)
    · intro c x hx
      by_cases hcb : b = c
      · rw [← hcb, List.getElem?_set_self hlt] at hx
        cases hx
      · rw [List.getElem?_set_ne hcb] at hx
        exact .inr ⟨(List.getElem?_eq_some_iff.mp hx).1, fun a ha => by rw [h1] at ha; cases ha; exact hcb⟩

/-- A new block, with any contents. -/
theorem Chg.fresh {h h1 : Heap F} {v : Vec} (hl : h1.length = h.length) (hc : Chg h v h1 .empty []) {l : List (Option F)}
    (hne : l ≠ []) : Chg h v (h1 ++ [some l]) ⟨some ⟨h.length, 0⟩, l.length⟩ l := by
  refine ⟨.inr ⟨h.length, rfl, rfl, hne, ?_⟩, by rw [List.length_append]; omega, ?_, ?_, ?_⟩
  · rw [← hl, List.getElem?_concat_length]
  · intro b hb hlt
    rw [List.getElem?_append_left (by omega)]
    exact hc.frame b hb hlt
  · intro a ha
    cases ha
    exact .inr (Nat.le_refl _)
  · intro b c hb
    by_cases hbl : b < h1.length
    · rw [List.getElem?_append_left hbl] at hb
      rcases hc.live b c hb with ⟨a, ha, -⟩ | g
      · cases ha
      · exact .inr g
    · have : b < (h1 ++ [some l]).length := (List.getElem?_eq_some_iff.mp hb).1
      rw [List.length_append, List.length_singleton] at this
      exact .inl ⟨_, rfl, by show h.length = b; omega⟩

theorem set_last (h : Heap F) (x y : Option (List (Option F))) : (h ++ [x]).set h.length y = h ++ [y] := by
  rw [List.set_append_right _ _ (Nat.le_refl _), Nat.sub_self]
  rfl

theorem init_ok (w : Nat) (n : Nat) (hn : n ≠ 0) (hw : (n : Int) * w ≤ 2147483647) (h : Heap F) :
    init w n h = .ok (⟨some ⟨h.length, 0⟩, n⟩, h ++ [some (List.replicate n none)]) := by
  unfold init
  rw [vecInit_ok (by omega) hw, ok_bind, if_neg (by omega)]
  rfl

theorem init_zero (w : Nat) (h : Heap F) : init w 0 h = .ok (.empty, h) := by
  unfold init
  rw [vecInit_ok (by omega) (by rw [Int.zero_mul]; omega), ok_bind, if_pos rfl]

theorem init_neg (w : Nat) {n : Int} (hn : n < 0) (h : Heap F) : init w n h = .error .assert := by
  unfold init vecInit cassert
  rw [decide_eq_false (by omega)]
  rfl

theorem memset_fresh (zero : F) (h : Heap F) (n : Nat) :
    memset0 zero (some ⟨h.length, 0⟩) n (h ++ [some (List.replicate n none)]) =
      .ok (h ++ [some (List.replicate n (some zero))]) := by
  have := memset_block (o := 0) (n := n) zero (h := h ++ [some (List.replicate n none)]) (b := h.length)
    (l := List.replicate n none) List.getElem?_concat_length (by rw [List.length_replicate]; omega)
  rw [patch_all _ _ (by rw [List.length_replicate, List.length_replicate]), set_last] at this
  exact this

/-- `Resize` without copying. -/
theorem resizePlain_chg (zero : F) (w : Nat) {h : Heap F} {v : Vec} {l : List (Option F)} (ho : Own h v l) (n : Nat)
    (hw : (n : Int) * w ≤ 2147483647) (z : Bool) :
    ∃ v' h', resizePlain zero w v n z h = .ok (v', h') ∧
      Chg h v h' v' (if z then List.replicate n (some zero) else if l.length = n then l else List.replicate n none) := by
  unfold resizePlain
  by_cases hs : v.data ≠ none ∧ v.dim = n
  · rw [if_pos hs]
    have hn : l.length = n := by have := ho.dim; omega
    obtain ⟨a, ha⟩ := Option.ne_none_iff_exists'.mp hs.1
    obtain ⟨h0, hb, hne⟩ := ho.block ha
    obtain ⟨b, o⟩ := a
    simp only at h0 hb
    subst h0
    cases z with
    | false =>
      refine ⟨v, h, rfl, ?_⟩
      rw [if_neg Bool.false_ne_true, if_pos hn]
      have := Chg.contents (l' := l) ha ho rfl
      rwa [show h.set b (some l) = h from List.ext_getElem? fun i => by
        by_cases hi : b = i
        · rw [← hi, hb, List.getElem?_set_self (List.getElem?_eq_some_iff.mp hb).1]
        · rw [List.getElem?_set_ne hi]] at this
    | true =>
      have e := memset_block (o := 0) (n := n) zero hb (by omega)
      refine ⟨v, h.set b (some (patch l 0 (List.replicate n (some zero)))), ?_, ?_⟩
      · unfold zeroIf
        rw [if_pos rfl, ha, hs.2]
        show (memset0 zero (some ⟨b, (0 : Nat)⟩) n h >>= _) = _
        rw [e]
        rfl
      · rw [patch_all _ _ (by rw [List.length_replicate, hn]), if_pos rfl]
        exact Chg.contents ha ho (by rw [List.length_replicate, hn])
  · rw [if_neg hs]
    obtain ⟨h1, e1, el, hc⟩ := destroy_chg ho
    rw [e1, ok_bind]
    by_cases hn : n = 0
    · subst hn
      refine ⟨.empty, h1, ?_, ?_⟩
      · rw [show ((0 : Nat) : Int) = 0 from rfl, init_zero, ok_bind]
        cases z <;> rfl
      · have : (if z then List.replicate 0 (some zero) else if l.length = 0 then l else List.replicate 0 none) = [] := by
          cases z with
          | true => rfl
          | false =>
            rw [if_neg Bool.false_ne_true]
            split
            · exact List.length_eq_zero_iff.mp (by assumption)
            · rfl
        rw [this]
        exact hc
    · rw [init_ok w n hn hw, ok_bind]
      cases z with
      | false =>
        refine ⟨_, _, rfl, ?_⟩
        have hne : l.length ≠ n := by
          intro e
          apply hs
          refine ⟨fun g => hn ?_, by rw [ho.dim, e]⟩
          rw [← e, (ho.none_iff).mp g]
          rfl
        rw [if_neg Bool.false_ne_true, if_neg hne]
        have := Chg.fresh el hc (l := List.replicate n none) (by simp [hn])
        rw [List.length_replicate] at this
        rw [el]
        exact this
      | true =>
        refine ⟨⟨some ⟨h1.length, 0⟩, n⟩, h1 ++ [some (List.replicate n (some zero))], ?_, ?_⟩
        · unfold zeroIf
          rw [if_pos rfl]
          show (memset0 zero (some ⟨h1.length, 0⟩) n (h1 ++ [some (List.replicate n none)]) >>= _) = _
          rw [memset_fresh]
          rfl
        · rw [if_pos rfl]
          have := Chg.fresh el hc (l := List.replicate n (some zero)) (by simp [hn])
          rw [List.length_replicate] at this
          rw [el]
          exact this

theorem resizePlain_neg (zero : F) (w : Nat) {h : Heap F} {v : Vec} {l : List (Option F)} (ho : Own h v l) {n : Int}
    (hn : n < 0) (z : Bool) : resizePlain zero w v n z h = .error .assert := by
  unfold resizePlain
  rw [if_neg (by have := ho.dim; rintro ⟨-, e⟩; omega)]
  obtain ⟨h1, e1, -, -⟩ := destroy_chg ho
  rw [e1, ok_bind, init_neg w hn]
  rfl

/-- `Resize` with `kCopyData`. -/
theorem resizeCopy_chg (zero : F) (w : Nat) {h : Heap F} {v : Vec} {l : List (Option F)} (ho : Own h v l) (n : Nat)
    (hw : (n : Int) * w ≤ 2147483647) :
    ∃ v' h', resizeCopy zero w v n h = .ok (v', h') ∧
      Chg h v h' v' (l.take n ++ List.replicate (n - l.length) (some zero)) := by
  unfold resizeCopy
  by_cases h1 : v.data = none ∨ (n : Int) = 0
  · rw [if_pos h1]
    have e : l.take n ++ List.replicate (n - l.length) (some zero) = List.replicate n (some zero) := by
      rcases h1 with h1 | h1
      · rw [(ho.none_iff).mp h1, List.take_nil]
        rfl
      · rw [show n = 0 by omega, List.take_zero, Nat.zero_sub]
        rfl
    rw [e]
    exact resizePlain_chg zero w ho n hw true
  · rw [if_neg h1]
    have hn : n ≠ 0 := fun e => h1 (.inr (by omega))
    obtain ⟨⟨a, o⟩, ha⟩ := Option.ne_none_iff_exists'.mp (fun g => h1 (.inl g))
    obtain ⟨h0, hb, hne⟩ := ho.block ha
    simp only at h0 hb
    subst h0
    by_cases h2 : v.dim = n
    · rw [if_pos h2]
      have hl : l.length = n := by have := ho.dim; omega
      refine ⟨v, h, rfl, ?_⟩
      rw [← hl, Nat.sub_self, List.take_length]
      have := Chg.contents (l' := l) ha ho rfl
      rw [show h.set a (some l) = h from List.ext_getElem? fun i => by
        by_cases hi : a = i
        · rw [← hi, hb, List.getElem?_set_self (List.getElem?_eq_some_iff.mp hb).1]
        · rw [List.getElem?_set_ne hi]] at this
      rw [List.replicate_zero, List.append_nil]
      exact this
    · rw [if_neg h2]
      have e0 : resizePlain zero w .empty n false h =
          .ok (⟨some ⟨h.length, 0⟩, n⟩, h ++ [some (List.replicate n none)]) := by
        unfold resizePlain
        rw [if_neg (fun g => g.1 rfl)]
        show (init w n h >>= _) = _
        rw [init_ok w n hn hw]
        rfl
      rw [e0, ok_bind, ha]
      simp only
      have hlt : a < h.length := (List.getElem?_eq_some_iff.mp hb).1
      -- the copy
      have ecopy : copyPart zero ⟨h.length, 0⟩ ⟨a, 0⟩ n v.dim (h ++ [some (List.replicate n none)]) =
          .ok (h ++ [some (l.take n ++ List.replicate (n - l.length) (some zero))]) := by
        have hb' : (h ++ [some (List.replicate n none)])[a]? = some (some l) := by
          rw [List.getElem?_append_left hlt]; exact hb
        have hnew : (h ++ [some (List.replicate n (none : Option F))])[h.length]? = some (some (List.replicate n none)) :=
          List.getElem?_concat_length
        unfold copyPart
        rw [ho.dim]
        by_cases hgt : (n : Int) > l.length
        · rw [if_pos hgt]
          rw [memcpy_block (by omega) hnew hb' (by rw [List.length_replicate]; omega) (Nat.le_refl _), ok_bind, set_last,
            List.take_length]
          have hpl : (patch (List.replicate n none) 0 l).length = n := by
            rw [patch_length _ (by rw [List.length_replicate]; omega), List.length_replicate]
          have := memset_block (o := l.length) (n := n - l.length) zero
            (h := h ++ [some (patch (List.replicate n none) 0 l)]) (b := h.length)
            List.getElem?_concat_length (by omega)
          rw [set_last] at this
          rw [show (n : Int) - l.length = (n - l.length : Nat) by omega, show (0 : Int) + l.length = l.length by omega, this]
          have ef : patch (patch (List.replicate n none) 0 l) l.length (List.replicate (n - l.length) (some zero)) =
              l.take n ++ List.replicate (n - l.length) (some zero) := by
            apply List.ext_getElem?
            intro i
            rw [patch_get _ (by rw [hpl, List.length_replicate]; omega), patch_get _ (by rw [List.length_replicate]; omega),
              List.take_of_length_le (by omega), List.getElem?_append, List.length_replicate, Nat.zero_add,
              if_neg (Nat.not_lt_zero _)]
            by_cases hi : i < l.length
            · rw [if_pos hi, if_pos hi, if_pos hi]
              rfl
            · rw [if_neg hi, if_neg hi, if_neg hi]
              by_cases hi' : i < l.length + (n - l.length)
              · rw [if_pos hi']
              · rw [if_neg hi', List.getElem?_replicate, List.getElem?_replicate, if_neg (by omega), if_neg (by omega)]
          rw [ef]
        · rw [if_neg hgt]
          rw [memcpy_block (by omega) hnew hb' (by rw [List.length_replicate]; omega) (by omega), set_last,
            patch_all _ _ (by rw [List.length_take, List.length_replicate]; omega), show n - l.length = 0 by omega,
            List.replicate_zero, List.append_nil]
      rw [ecopy, ok_bind]
      -- the old block
      have hne2 : l.take n ++ List.replicate (n - l.length) (some zero) ≠ [] := by
        intro g
        have := congrArg List.length g
        rw [List.length_append, List.length_take, List.length_replicate, List.length_nil] at this
        omega
      have hlen : (l.take n ++ List.replicate (n - l.length) (some zero)).length = n := by
        rw [List.length_append, List.length_take, List.length_replicate]; omega
      generalize l.take n ++ List.replicate (n - l.length) (some zero) = m at hne2 hlen ⊢
      have ed : destroy v (h ++ [some m]) = .ok ((h.set a none) ++ [some m]) := by
        unfold destroy free
        rw [ha]
        simp only
        rw [List.getElem?_append_left hlt, hb]
        simp only
        rw [if_pos trivial, List.set_append_left _ _ hlt]
      rw [ed]
      refine ⟨_, _, rfl, ?_⟩
      obtain ⟨h1', e1, el, hc⟩ := destroy_chg ho
      have : h1' = h.set a none := by
        unfold destroy free at e1
        rw [ha] at e1
        simp only [hb] at e1
        cases e1
        rfl
      rw [← this]
      have := Chg.fresh el hc hne2
      rw [hlen] at this
      exact this

theorem resizeCopy_neg (zero : F) (w : Nat) {h : Heap F} {v : Vec} {l : List (Option F)} (ho : Own h v l) {n : Int}
    (hn : n < 0) : resizeCopy zero w v n h = .error .assert := by
  unfold resizeCopy
  by_cases h1 : v.data = none ∨ n = 0
  · rw [if_pos h1, resizePlain_neg zero w ho hn]
  · rw [if_neg h1, if_neg (by have := ho.dim; omega)]
    rw [resizePlain_neg zero w (v := .empty) (l := []) (.inl ⟨rfl, rfl⟩) hn]
    rfl

theorem resize_chg (zero : F) (w : Nat) {h : Heap F} {v : Vec} {l : List (Option F)} (ho : Own h v l) (n : Nat)
    (hw : (n : Int) * w ≤ 2147483647) (m : Mode) :
    ∃ v' h', resize zero w v n m h = .ok (v', h') ∧ Chg h v h' v' (Spec.resized zero l n m) := by
  cases m with
  | zero => exact resizePlain_chg zero w ho n hw true
  | undefined => exact resizePlain_chg zero w ho n hw false
  | copy => exact resizeCopy_chg zero w ho n hw

theorem resize_neg (zero : F) (w : Nat) {h : Heap F} {v : Vec} {l : List (Option F)} (ho : Own h v l) {n : Int}
    (hn : n < 0) (m : Mode) : resize zero w v n m h = .error .assert := by
  cases m with
  | zero => exact resizePlain_neg zero w ho hn true
  | undefined => exact resizePlain_neg zero w ho hn false
  | copy => exact resizeCopy_neg zero w ho hn

end Verif.VecMem
