import Verif.EndLmLemmas
import Verif.IeeeEndFilesSpec
import Verif.IeeeEndProps

/-!
# Lemmas: from the files of a model to the conditions of C101
-/

namespace Verif.Ieee

open Verif Verif.Fst Verif.Decoder Verif.Ieee.Spec Verif.Main.Spec

/-- The operations of the language model on `float`. -/
abbrev lmOps : FloatOps F32 := ⟨add, sub, isNum, .inf false⟩

variable {a : ℕ}

theorem backedWeight_mag {w : F32} (hw : AtMost a w) : ∀ {bs : List (Arc F32)}, a + bs.length ≤ 126 →
    (∀ b ∈ bs, AtMost a b.weight) → AtMost (a + bs.length) (backedWeight lmOps bs w)
  | [], _, _ => hw
  | b :: bs, hn, hb => by
    rw [List.length_cons] at hn ⊢
    have h1 := backedWeight_mag hw (bs := bs) (by omega) fun c hc => hb c (List.mem_cons_of_mem _ hc)
    have h2 := mag_add' (a := a + bs.length) (b := a) (by omega) h1 (hb b List.mem_cons_self)
    rw [max_eq_left (by omega)] at h2
    exact h2

theorem backedFinal_mag {w : F32} (hw : w = .inf false ∨ AtMost a w) : ∀ {bs : List (Arc F32)}, a + bs.length ≤ 126 →
    (∀ b ∈ bs, AtMost a b.weight) → backedFinal lmOps bs w = .inf false ∨ AtMost (a + bs.length) (backedFinal lmOps bs w)
  | [], _, _ => hw
  | b :: bs, hn, hb => by
    rw [List.length_cons] at hn ⊢
    rcases backedFinal_mag hw (bs := bs) (by omega) fun c hc => hb c (List.mem_cons_of_mem _ hc) with h1 | h1
    · left
      show (if isNum (backedFinal lmOps bs w) then _ else _) = _
      rw [h1]
      rfl
    · right
      have h2 := mag_add' (a := a + bs.length) (b := a) (by omega) h1 (hb b List.mem_cons_self)
      rw [max_eq_left (by omega)] at h2
      obtain ⟨q, ⟨hq, eq⟩, _⟩ := h1
      show AtMost _ (if isNum (backedFinal lmOps bs w) then add (backedFinal lmOps bs w) b.weight else .inf false)
      rw [if_pos (by rw [eq]; rfl)]
      exact h2

theorem add_inf {x : F32} (h : AtMost a x) : add (.inf false) x = .inf false := by
  obtain ⟨q, ⟨hq, rfl⟩, _⟩ := h
  rfl

theorem sub_inf {x : F32} (h : AtMost a x) : sub (.inf false) x = .inf false := by
  have h1 : Mag (f := binary32) a (neg x) := mag_neg h
  exact add_inf h1

section lm

variable {t : Transducer F32} {depth : Nat} {bos eos : Int} {small : List F32} {lm : IFst F32} {words : Int → Prop}

theorem light_arc (h : Backoff t depth bos eos) (ha : Answers lmOps small t bos eos depth lm) (hl : Light small t a words)
    (hd : a + depth + 2 ≤ 126) {s : Int} (hs : IsState t s) {w : Int} (hw : words w) :
    ∃ r, lm.getArc s w = .ok r ∧ ∀ b, r = some b → IsState t b.next ∧ AtMost (a + depth + 2) b.weight := by
  obtain ⟨h0, x, hx, hx'⟩ := hl.word w hw
  rcases h.lmArc ha hs h0 hx with h1 | ⟨n, e, bs, c, _, k1, k2, k3, k4, k5⟩
  · exact ⟨none, h1, fun b hb => by cases hb⟩
  · refine ⟨_, k5, fun b hb => ?_⟩
    cases hb
    refine ⟨k4, ?_⟩
    have h2 := backedWeight_mag (hl.arc _ _ _ k3) (bs := bs) (by omega) fun b hb => by
      obtain ⟨_, hb⟩ := k1.arcs b hb
      exact hl.arc _ _ _ hb
    exact Mag.mono (by omega) (mag_sub (f := binary32) (a := a + bs.length) (by rw [top32]; omega) h2 (Mag.mono (by omega) hx'))

theorem light_final (h : Backoff t depth bos eos) (ha : Answers lmOps small t bos eos depth lm) (hl : Light small t a words)
    (hd : a + depth + 2 ≤ 126) {s : Int} (hs : IsState t s) (hw : words eos) :
    ∃ u, lm.final s = .ok u ∧ (u = .inf false ∨ AtMost (a + depth + 2) u) := by
  obtain ⟨_, x, hx, hx'⟩ := hl.word eos hw
  obtain ⟨n, e, d, g, bs, fs, c, w, _, k1, k2, k3, k4, k5, k6, k7⟩ := h.lmFinal ha hs hx
  refine ⟨_, k7, ?_⟩
  have h2 := backedWeight_mag (hl.arc _ _ _ k3) (bs := bs) (by omega) fun b hb => by
    obtain ⟨_, hb⟩ := k1.arcs b hb
    exact hl.arc _ _ _ hb
  have hw' : (if isNum w then w else .inf false) = .inf false ∨ AtMost a (if isNum w then w else .inf false) := by
    rcases hl.final _ _ k6 with rfl | h3
    · exact .inl rfl
    · have h3' := h3
      obtain ⟨q, ⟨hq, rfl⟩, _⟩ := h3
      exact .inr h3'
  rcases backedFinal_mag hw' (bs := fs) (by omega) (fun b hb => by
    obtain ⟨_, hb⟩ := k4.arcs b hb
    exact hl.arc _ _ _ hb) with h3 | h3
  · left
    show sub (add (backedFinal lmOps fs _) (backedWeight lmOps bs c.weight)) x = _
    rw [show backedFinal lmOps fs (if lmOps.finite w = true then w else lmOps.inf) = .inf false from h3, add_inf h2, sub_inf hx']
  · right
    have h4 := mag_add (f := binary32) (a := a + depth) (by rw [top32]; omega) (Mag.mono (by omega) h3) (Mag.mono (by omega) h2)
    exact mag_sub (f := binary32) (a := a + depth + 1) (by rw [top32]; omega) h4 (Mag.mono (by omega) hx')

/-- Graph and transition map with a backoff model. -/
theorem sturdy_lm {e : Env F32 F64} (he : e.lm = some lm) {Q : Int → Prop} {width N k : Nat}
    (hg : Sturdy { e with lm := none } Q width N k) (h : Backoff t depth bos eos) (ha : Answers lmOps small t bos eos depth lm)
    (hl : Light small t a words) (hd : a + depth + 2 ≤ 126)
    (hw : ∀ s, ∀ c ∈ e.g.arcs s, c.olabel ≠ 0 → words c.olabel) (hw' : words eos) : Sturdy e (IsState t) width N k where
  start := hg.start
  next := hg.next
  branch := hg.branch
  silent := hg.silent
  score := hg.score
  lmState := fun s hs => by
    obtain ⟨n, rfl, hn⟩ := hs
    have := h.size
    omega
  lmStart := fun lm' h' => by
    obtain rfl : lm = lm' := Option.some.inj (he.symm.trans h')
    exact h.lmStart ha
  lmArc := fun lm' h' s hs g c hc h0 => by
    obtain rfl : lm = lm' := Option.some.inj (he.symm.trans h')
    obtain ⟨r, h1, h2⟩ := light_arc h ha hl hd hs (hw g c hc h0)
    exact ⟨r, h1, fun b hb => (h2 b hb).1⟩
  lmFinal := fun lm' h' s hs => by
    obtain rfl : lm = lm' := Option.some.inj (he.symm.trans h')
    obtain ⟨u, h1, _⟩ := light_final h ha hl hd hs hw'
    exact ⟨u, h1⟩

/-- A graph with moderate costs, and a backoff model with such costs. -/
theorem modest_files {e : Env F32 F64} (he : e.lm = some lm) {Q : Int → Prop} {W : Rat} (hg : Modest { e with lm := none } Q W)
    (h : Backoff t depth bos eos) (ha : Answers lmOps small t bos eos depth lm) (hl : Light small t a words)
    (hd : a + depth + 2 ≤ 126) (hw : ∀ s, ∀ c ∈ e.g.arcs s, c.olabel ≠ 0 → words c.olabel) (hw' : words eos)
    (hW : 2 ^ (a + depth + 2) ≤ W) : Modest e (IsState t) W where
  arc := hg.arc
  final := hg.final
  lmArc := fun lm' h' s hs g c hc h0 b hb => by
    obtain rfl : lm = lm' := Option.some.inj (he.symm.trans h')
    obtain ⟨r, h1, h2⟩ := light_arc h ha hl hd hs (hw g c hc h0)
    obtain rfl : r = some b := by rw [h1] at hb; cases hb; rfl
    obtain ⟨q, q1, q2⟩ := (h2 b rfl).2
    exact ⟨q, q1, q2.trans (by exact_mod_cast hW)⟩
  lmFinal := fun lm' h' s hs u hu => by
    obtain rfl : lm = lm' := Option.some.inj (he.symm.trans h')
    obtain ⟨v, h1, h2⟩ := light_final h ha hl hd hs hw'
    obtain rfl : v = u := by rw [h1] at hu; cases hu; rfl
    rcases h2 with h2 | ⟨q, q1, q2⟩
    · exact .inl h2
    · exact .inr ⟨q, q1, q2.trans (by exact_mod_cast hW)⟩

end lm

end Verif.Ieee
