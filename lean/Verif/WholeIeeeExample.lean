import Verif.WholeIeeeProps
import Verif.IeeeTotalExample

/-!
# C114: an example

The network, the graph and the language model of `IeeeEndExample.lean`, the tables of the feature extraction as they are made
with the arithmetic of IEEE 754 and the C library of C99, and a memory with the tables in blocks of their own.
-/

namespace Verif.Ieee.End

open Verif Verif.Main.Ex Verif.Decoder Verif.Decoder.Beam Verif.Ieee.Spec Verif.Ieee.Ex Verif.Main.Spec
open _root_.Verif.Mat (Heap Addr peek)
open _root_.Verif.NetMem.Spec (Live Line VShows)
open _root_.Verif.AmMem (ModelM)
open _root_.Verif.FbankMem (TabM)

variable {F : Type}

/-- A memory with these arrays in blocks of their own. -/
def store (ls : List (List F)) : Heap F := ls.map fun x => some (x.map some)

theorem store_line {ls : List (List F)} {i : Nat} {x : List F} (h : ls[i]? = some x) : Line (store ls) ⟨i, 0⟩ x := by
  intro j y hy
  have hb : (store ls)[i]? = some (some (x.map some)) := by
    unfold store
    rw [List.getElem?_map, h]
    rfl
  unfold peek
  simp only [hb, Int.zero_add]
  rw [if_pos (by omega), Int.toNat_natCast, List.getElem?_map, hy]
  rfl

/-- The window is in block 0, and filter `i` in block `i + 2`. -/
def tables (o : Fbank.Ops F) : TabM :=
  ⟨⟨some ⟨0, 0⟩, o.window.length⟩, o.bins.mapIdx fun i b => (b.1, ⟨some ⟨i + 2, 0⟩, b.2.length⟩)⟩

/-- The window, the prior and the filters. -/
def arrays (o : Fbank.Ops F) (prior : List F) : List (List F) := o.window :: prior :: o.bins.map Prod.snd

theorem tables_loaded {o : Fbank.Ops F} (h : ∀ b ∈ o.bins, b.2 ≠ []) (prior : List F) :
    FbankMem.Spec.Loaded (store (arrays o prior)) (tables o) o := by
  refine ⟨⟨rfl, ⟨0, 0⟩, rfl, store_line rfl⟩, ?_⟩
  rw [List.forall₂_iff_get]
  refine ⟨by unfold tables; rw [List.length_mapIdx], fun i h1 h2 => ?_⟩
  unfold tables
  simp only [List.get_eq_getElem, List.getElem_mapIdx]
  refine ⟨trivial, h _ (List.getElem_mem _), rfl, ⟨i + 2, 0⟩, by simp, store_line ?_⟩
  unfold arrays
  rw [List.getElem?_cons_succ, List.getElem?_cons_succ, List.getElem?_map, List.getElem?_eq_getElem h2]
  rfl

/-- No filter of a feature extraction that can be made is empty. -/
theorem make_filters {a : Fbank.Arith F} {o : Fbank.Ops F} (h : Fbank.make a = .ok o) : ∀ b ∈ o.bins, b.2 ≠ [] := by
  unfold Fbank.make at h
  rw [show Fbank.roundUp Fbank.frameLength = .ok 512 from by decide +kernel, ok_bind] at h
  obtain ⟨bins, e1, h⟩ := bind_ok h
  rw [Srfft.new_pow (k := 8) a.fft (by omega) rfl, ok_bind, Fbank.hammingInit_ok, ok_bind] at h
  cases h
  unfold Fbank.melInit at e1
  obtain ⟨u, -, e1⟩ := bind_ok e1
  simp only at e1
  obtain ⟨u, -, e1⟩ := bind_ok e1
  intro b hb
  obtain ⟨idx, -, e2⟩ := (Fbank.mapM_inv e1).2 b hb
  rcases Fbank.melFilter_ok a (num := (512 : Int).tdiv 2 |>.toNat) (by decide) _ _ _ idx rfl rfl with
    ⟨f, l, h1, h2, -, -, -, e3⟩ | ⟨-, e3⟩
  · rw [e3] at e2
    cases e2
    intro h0
    have := congrArg List.length h0
    simp only at this
    rw [Srfft.vec_length, List.length_nil] at this
    omega
  · rw [e3] at e2
    cases e2

/-- A recogniser with the arithmetic of IEEE 754. -/
noncomputable def desk : Stt.Rec F32 F64 where
  conv := fun n : ℤ => fit binary32 (n : ℚ)
  fb := fbOf
  nn := nnet someNnLib
  am := ⟨net, List.replicate 80 none', 1, 0, 2⟩
  dec := env true
  fuel := 2 ^ 62 * 3
  syms := [[45], [104, 105]]
  perFrame x n := div x (ofNat n)
  zero := none'

theorem desk_sound : Stt.Sound desk someRow 80 1 0 2 80 where
  hvm := someNnLib_laws.rows
  hb := net_built
  hprior := List.length_replicate
  hleft := rfl
  hright := rfl
  hchunk := rfl
  hc := by decide
  hsize := by decide
  hbig := by decide
  tables := (Fbank.make_ok fbOf_made).1
  scratch := (Fbank.make_ok fbOf_made).2

/-- Its acoustic model: the network has no parameters, and the prior is in block 1. -/
def deskModel : ModelM := ⟨[.splice [-1, 0], .narrow 1 0, .relu], ⟨some ⟨1, 0⟩, 80⟩, 1, 0, 2⟩

theorem desk_loaded : AmMem.Spec.Loaded (store (arrays fbOf (List.replicate 80 none'))) deskModel desk.am := by
  refine ⟨.cons (.splice _) (.cons (.narrow _ _) (.cons .relu .nil)), ⟨?_, ⟨1, 0⟩, rfl, store_line rfl⟩, rfl, rfl, rfl⟩
  show (80 : Int) = ((List.replicate 80 none').length : Nat)
  rw [List.length_replicate]
  rfl

-- two frames, in two pieces: the program with all of its memory has an answer, whatever uninitialised memory contains
example : ∃ text ll, ∀ (fill : Nat → UInt8) (w1 w2 : Whole.Wild F32), ∃ dec h',
    Whole.recognise desk (tables fbOf) deskModel ⟨1, 16000, 8⟩ fill [(w1, List.replicate 450 3), (w2, List.replicate 110 200)]
      (store (arrays fbOf (List.replicate 80 none'))) = .ok ((text, ll, dec, .none), h') ∧
    ∀ j, Live h' j ↔ Live (store (arrays fbOf (List.replicate 80 none'))) j := by
  obtain ⟨rows, _, h2, h3⟩ := C114_any_audio someLib_laws someNnLib_laws desk_sound (by decide) rfl fbOf_made rfl rfl
    (a := 7) (d := 0) net_robust
    (fun x hx => by
      rw [List.eq_of_mem_replicate hx]
      exact ⟨0, none_is, by norm_num⟩) (by omega) (env_sturdy true 80 (by omega)) ring_lively (W := 1) (by norm_num)
    (env_modest true) tenth_is
    (fun s a ha h0 => by
      rcases ring_arc ha with rfl | rfl | rfl
      · exact ⟨[104, 105], rfl⟩
      · exact absurd rfl h0
      · exact absurd rfl h0) (by decide) (env_compact true) (by decide) env_labels env_numbers desk_loaded
    (tables_loaded (make_filters fbOf_made) _) (b := 1) (.inl rfl) (List.replicate 450 3 ++ List.replicate 110 200) 5
    (by rw [List.length_append, List.length_replicate, List.length_replicate]; decide) (by omega) (by norm_num)
  obtain ⟨text, ll, -, h4⟩ := h3 (h2 (by rw [List.length_append, List.length_replicate, List.length_replicate]; decide))
  refine ⟨text, ll, fun fill w1 w2 => ?_⟩
  obtain ⟨dec, h', g1, -, g3⟩ := h4 fill [(w1, List.replicate 450 3), (w2, List.replicate 110 200)] (by
    intro p hp
    rcases List.mem_cons.1 hp with rfl | hp
    · exact ⟨fun h => absurd (congrArg List.length h) (by rw [List.length_replicate]; decide), by
        rw [List.length_replicate]; decide⟩
    · rw [List.mem_singleton.1 hp]
      exact ⟨fun h => absurd (congrArg List.length h) (by rw [List.length_replicate]; decide), by
        rw [List.length_replicate]; decide⟩) (by
    rw [List.map_cons, List.map_cons, List.map_nil, List.flatten_cons, List.flatten_cons, List.flatten_nil, List.append_nil])
  exact ⟨dec, h', g1, g3⟩

end Verif.Ieee.End
