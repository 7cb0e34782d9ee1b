import Verif.DecoderInv

/-!
# Re-initialisation: helper lemmas for C24
-/

set_option linter.unusedSectionVars false

namespace Verif.Decoder

open Verif Verif.Fst

variable {F D : Type}

/-- A state with another end-of-stream flag and `n` more allocated tokens. -/
def shift (b : Bool) (n : Int) (d : Dec F) : Dec F := { d with eos := b, live := d.live + n }

/-- Apply a function to the result. -/
def emap {α β : Type} (f : α → β) : Exec α → Exec β
  | .ok a => .ok (f a)
  | .error x => .error x

theorem emap_bind {α β γ δ : Type} {f : α → β} {g : γ → δ} {x : Exec α} {y : Exec β} {h : α → Exec γ} {k : β → Exec δ}
    (hxy : y = emap f x) (hk : ∀ a, k (f a) = emap g (h a)) : (y >>= k) = emap g (x >>= h) := by
  subst hxy
  cases x with
  | error e => rfl
  | ok a => exact hk a

theorem foldlM_emap {α β β' : Type} {φ : β → β'} {f : β → α → Exec β} {g : β' → α → Exec β'}
    (h : ∀ b a, g (φ b) a = emap φ (f b a)) : ∀ (l : List α) (b : β), l.foldlM g (φ b) = emap φ (l.foldlM f b)
  | [], b => rfl
  | a :: l, b => by
    rw [List.foldlM_cons, List.foldlM_cons]
    exact emap_bind (h b a) fun b' => foldlM_emap h l b'

theorem insertTok_shift (e : Env F D) (b : Bool) (n : Int) (d : Dec F) (st : State) (label : Int) (hist : List Int)
    (cost : F) : insertTok e (shift b n d) st label hist cost =
      emap (fun r => (r.1, shift b n r.2)) (insertTok e d st label hist cost) := by
  unfold insertTok
  simp only [show (shift b n d).idx = d.idx from rfl, show (shift b n d).toks = d.toks from rfl]
  cases d.idx.lookup st with
  | none =>
    simp only [emap, shift]
    congr 3
    omega
  | some i =>
    simp only
    cases d.toks[i]? with
    | none => rfl
    | some old =>
      simp only
      split
      · simp only [emap, shift]
        congr 3
        omega
      · rfl

theorem nonemitArc_shift (e : Env F D) (b : Bool) (n : Int) (i : Nat) (cutoff : D) (acc : Dec F × List State)
    (a : GArc F) : nonemitArc e i cutoff (shift b n acc.1, acc.2) a =
      emap (fun r => (shift b n r.1, r.2)) (nonemitArc e i cutoff acc a) := by
  obtain ⟨d, stack⟩ := acc
  unfold nonemitArc
  simp only [show (shift b n d).toks = d.toks from rfl]
  split
  · rfl
  · cases d.toks[i]? with
    | none => rfl
    | some t =>
      simp only
      refine emap_bind (f := id) (by cases addLm e _ _ _ <;> rfl) fun r => ?_
      obtain ⟨l, tot⟩ := r
      simp only [id]
      split
      · rfl
      · refine emap_bind (insertTok_shift e b n d _ _ _ _) fun r => ?_
        rfl

theorem nonemitLoop_shift (e : Env F D) (b : Bool) (n : Int) (cutoff : D) :
    ∀ (fuel : Nat) (d : Dec F) (stack : List State),
      nonemitLoop e cutoff fuel (shift b n d) stack = emap (shift b n) (nonemitLoop e cutoff fuel d stack)
  | fuel, d, [] => by cases fuel <;> rfl
  | 0, _, _ :: _ => rfl
  | fuel + 1, d, st :: stack => by
    unfold nonemitLoop
    simp only [show (shift b n d).idx = d.idx from rfl]
    cases d.idx.lookup st with
    | none => rfl
    | some i =>
      exact emap_bind (foldlM_emap (φ := fun r : Dec F × List State => (shift b n r.1, r.2))
        (fun acc a => nonemitArc_shift e b n i cutoff acc a) _ (d, stack))
        fun r => nonemitLoop_shift e b n cutoff fuel r.1 r.2

theorem initDecoder_shift (e : Env F D) (fuel : Nat) (d : Dec F) (h : d.idx = []) :
    initDecoder e fuel d = emap (shift d.eos d.live) (initDecoder e fuel fresh) := by
  unfold initDecoder
  refine emap_bind (f := id) (by cases cassert _ <;> rfl) fun _ => ?_
  refine emap_bind (f := id) (by cases lmStart e <;> rfl) fun ls => ?_
  simp only [id]
  have h1 : insertTok e { d with toks := [], prev := [] } (e.g.start, ls) 0 [] e.ar.zero =
      emap (fun r => (r.1, { shift d.eos d.live r.2 with frames := d.frames }))
        (insertTok e { (fresh : Dec F) with toks := [], prev := [] } (e.g.start, ls) 0 [] e.ar.zero) := by
    simp [insertTok, h, fresh, emap, shift]
    omega
  refine emap_bind h1 fun r => ?_
  obtain ⟨ins, d1⟩ := r
  show processNonemitting e e.ar.inf fuel (shift d.eos d.live { d1 with frames := 0 }) = _
  unfold processNonemitting
  refine emap_bind (f := id) (by
    show _ = emap id (cassert _)
    cases hc : cassert (List.all d1.toks _) <;> simp only [shift, hc] <;> rfl) fun _ => ?_
  exact nonemitLoop_shift e _ _ _ _ _ _

end Verif.Decoder
