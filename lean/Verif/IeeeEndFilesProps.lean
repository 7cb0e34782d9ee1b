import Verif.IeeeEndFiles
import Verif.IeeeEndExample
import Verif.LoudExample

/-!
# C101, from the files of a model directory

In `C101_program` the conditions on the language model are conditions on the one in memory; here they are conditions on the
backoff model the file was made from.
-/

namespace Verif.Ieee

open Verif Verif.Text Verif.App.Spec Verif.Decoder Verif.Decoder.Beam Verif.Ieee.Spec Verif.Main Verif.Main.Spec

/-- C101, from the files.  A directory with a model whose network is robust (C100), whose graph is lively, fits to the
transition map and has moderate costs, whose words are in the symbol file, and whose language model, if it has one, is a backoff
model with moderate costs that knows the beginning and the end of a sentence: whatever the audio is, the program runs to its
end and writes one line, for as many frames as leave room for 100000 words. -/
theorem C101_files {G : Type} {lib : Lib} {nlib : NnLib} {vm : List F32 → List (List F32) → List F32} (hl : LibLaws lib)
    (hnl : NnLaws nlib vm) (mach : Machine G F32 F64) (har : mach.ar = machine) (hfb : Fbank.make (fbank lib) = .ok mach.fb)
    (hcv : mach.conv = fun n : ℤ => fit binary32 (n : ℚ)) (hnn : mach.nn = nnet nlib)
    (hlm : mach.lm = ⟨add, sub, isNum, .inf false⟩) (w : App.World G) (conf bytes : Str)
    (defs : List (Str × Str)) (m : App.Spec.Model G) (hf : w.file conf = some bytes) (hc : IsConf bytes defs)
    (hi : Installed w conf defs m) (ho : m.Ok w) (e wd : Nat) (hfit : Fits mach m vm e wd) {a d : ℕ}
    (hg : Robust (m.layers.map (valueLayer fun x => mach.word (some x))) 7 a)
    (hp : ∀ x ∈ m.prior, AtMost d (mach.word (some (w.log x)))) (had : max a d + 1 ≤ 126) {N k : Nat}
    (hst : Sturdy ⟨mach.ar, mach.graph m.graph, none, m.map, mach.amScale⟩ (fun _ => False) e N k)
    (hv : Lively (mach.graph m.graph)) {c : ℕ}
    (hm : Modest ⟨mach.ar, mach.graph m.graph, none, m.map, mach.amScale⟩ (fun _ => False) (2 ^ c))
    (hw : ∀ s, ∀ b ∈ (mach.graph m.graph).arcs s, b.olabel ≠ 0 → ∃ v, Spells m.symbols b.olabel v)
    (hb : ∀ u t bos eos, m.lm = some (u, t) → IsLast (m.symbols.map fun e => (e.word, (e.id : Int))) sentBegin bos →
      IsLast (m.symbols.map fun e => (e.word, (e.id : Int))) sentEnd eos →
      Fst.Backoff (valueFst (fun x => mach.word (some x.toNat)) t) mach.lmFuel bos eos ∧
      Light (u.map fun x => mach.word (some x)) (valueFst (fun x => mach.word (some x.toNat)) t) c
        (fun v => v = eos ∨ v ≠ 0 ∧ ∃ s, ∃ b ∈ (mach.graph m.graph).arcs s, v = b.olabel))
    (hcl : c + mach.lmFuel + 2 ≤ 126) {q : Rat} (hq : Is mach.amScale q) (hfu : 2 ^ 62 * (N + 1) ^ k ≤ mach.fuel)
    (input : Str) (file data : List UInt8) (b n : Nat) (hwav : IsWav input) (hfile : w.file input = some file)
    (ha : IsAudio file b data) (hn : n = Fbank.Spec.numFrames (data.length / b) * (k + 1) + k) (hn1 : n < 100000)
    (hB : ((n + 1 : Nat) : Rat) * (2 * 2 ^ (c + mach.lmFuel + 2) + |q| * 2 ^ (max a d + 1)) ≤ 2 ^ 100) (junk : Nat → Junk F32) :
    ∃ t, 0 ∉ t ∧ main mach w junk [conf, input] = ⟨[.line t], .ok ()⟩ := by
  obtain ⟨r, hir, key⟩ := C101_program hl hnl mach har hfb hcv hnn w conf bytes defs m hf hc hi ho e wd hfit hg hp had
  have hgr := hir.graph
  have hm' : Modest ⟨mach.ar, mach.graph m.graph, none, m.map, mach.amScale⟩ (fun _ => False)
      (2 ^ (c + mach.lmFuel + 2)) := by
    have hle : (2 : Rat) ^ c ≤ 2 ^ (c + mach.lmFuel + 2) := pow_le_pow_right₀ (by norm_num) (by omega)
    exact ⟨fun s x hx => (hm.arc s x hx).imp fun v hv => ⟨hv.1, hv.2.trans hle⟩,
      fun s => (hm.final s).imp id fun ⟨v, hv⟩ => ⟨v, hv.1, hv.2.trans hle⟩,
      fun _ h => (nomatch h), fun _ h => (nomatch h)⟩
  have henv : ({ r.dec with lm := none } : Env F32 F64) =
      ⟨mach.ar, mach.graph m.graph, none, m.map, mach.amScale⟩ := by
    rw [← hir.ar, ← hgr, ← hir.pdf, ← hir.amScale]
  have hP : ∃ P, Sturdy r.dec P e N k ∧ Modest r.dec P (2 ^ (c + mach.lmFuel + 2)) := by
    have h5 := hir.lm
    cases hlm' : m.lm with
    | none =>
      rw [hlm'] at h5
      have h6 : r.dec = ⟨mach.ar, mach.graph m.graph, none, m.map, mach.amScale⟩ := by
        rw [← henv, ← show r.dec.lm = none from h5]
      rw [h6]
      exact ⟨_, hst, hm'⟩
    | some p =>
      obtain ⟨u, t⟩ := p
      rw [hlm'] at h5
      obtain ⟨lm, bos, eos, l1, l2, l3, l4⟩ := h5
      obtain ⟨b1, b2⟩ := hb u t bos eos hlm' l3 l4
      rw [hlm] at l2
      rw [← henv] at hst hm'
      have hwd : ∀ s, ∀ b ∈ r.dec.g.arcs s, b.olabel ≠ 0 →
          (b.olabel = eos ∨ b.olabel ≠ 0 ∧ ∃ s, ∃ b' ∈ (mach.graph m.graph).arcs s, b.olabel = b'.olabel) :=
        fun s b hb h0 => .inr ⟨h0, s, b, by rw [← hgr]; exact hb, rfl⟩
      exact ⟨_, sturdy_lm l1 hst b1 l2 b2 hcl hwd (.inl rfl), modest_files l1 hm' b1 l2 b2 hcl hwd (.inl rfl) le_rfl⟩
  obtain ⟨P, p1, p2⟩ := hP
  exact key P N k _ q p1 (by rw [hgr]; exact hv) (by positivity) p2 hq (by rw [hgr]; exact hw) hfu input file data b n hwav hfile ha
    hn hn1 hB junk

namespace End

open Verif.Main.Ex Verif.Ieee.Ex Verif.Loud.Ex Verif.Fst

/-- The values of words. -/
def val (n : Nat) : F32 := fit binary32 (n : ℚ)

theorem val_small {n : Nat} (h : n ≤ 32) : AtMost 5 (val n) :=
  fit_mag (f := binary32) (a := 5) (by rw [top32]; omega) (by
    rw [abs_of_nonneg (by positivity)]
    exact (Nat.cast_le.2 h).trans (by norm_num))

/-- The language model with `<s>`, `hi` and `</s>`, and one state that backs off. -/
def good : Transducer F32 := valueFst (fun x => val x.toNat) lmGood

theorem good_arc {s : Nat} {l : Int} {a : Arc F32} (h : firstArc good s l = some a) : a.ilabel = l ∧
    (s = 0 ∧ a ∈ [(⟨1, 2, 2, val 5⟩ : Arc F32), ⟨0, 1, 1, val 20⟩, ⟨0, 3, 3, val 6⟩] ∨ s = 1 ∧ a = ⟨0, 0, 0, val 4⟩) := by
  rcases s with _ | _ | s
  · change [(⟨1, 2, 2, val 5⟩ : Arc F32), ⟨0, 1, 1, val 20⟩, ⟨0, 3, 3, val 6⟩].find? (fun a => decide (a.ilabel = l)) = some a at h
    exact ⟨by simpa using List.find?_some h, .inl ⟨rfl, List.mem_of_find?_eq_some h⟩⟩
  · change [(⟨0, 0, 0, val 4⟩ : Arc F32)].find? (fun a => decide (a.ilabel = l)) = some a at h
    exact ⟨by simpa using List.find?_some h, .inr ⟨rfl, List.mem_singleton.1 (List.mem_of_find?_eq_some h)⟩⟩
  · cases h

theorem good_next {s : Nat} {l : Int} {a : Arc F32} (h : firstArc good s l = some a) :
    (a.next = 0 ∨ a.next = 1) ∧ AtMost 5 a.weight ∧ (l = 0 → s = 1 ∧ a.next = 0) := by
  obtain ⟨h1, ⟨rfl, h2⟩ | ⟨rfl, rfl⟩⟩ := good_arc h
  · simp only [List.mem_cons, List.not_mem_nil, or_false] at h2
    rcases h2 with rfl | rfl | rfl
    · exact ⟨.inr rfl, val_small (by omega), fun h => by rw [← h1] at h; cases h⟩
    · exact ⟨.inl rfl, val_small (by omega), fun h => by rw [← h1] at h; cases h⟩
    · exact ⟨.inl rfl, val_small (by omega), fun h => by rw [← h1] at h; cases h⟩
  · exact ⟨.inl rfl, val_small (by omega), fun _ => ⟨rfl, rfl⟩⟩

theorem good_states : good.states.length = 2 := rfl

theorem good_backoff : Backoff good 10 2 3 where
  size := by rw [good_states]; norm_num
  start := ⟨0, rfl, by rw [good_states]; omega⟩
  next := fun s l a h => by
    rcases (good_next h).1 with h1 | h1
    · exact ⟨0, h1, by rw [good_states]; omega⟩
    · exact ⟨1, h1, by rw [good_states]; omega⟩
  falls := ⟨fun s => if s = 1 then 1 else 0, fun s => by beta_reduce; split <;> omega, fun s a d h hd => by
    obtain ⟨rfl, h1⟩ := (good_next h).2.2 rfl
    have h2 : d = 0 := by omega
    subst h2
    decide⟩
  begins := ⟨by decide, fun s hs h => by
    rw [good_states] at hs
    obtain rfl | rfl : s = 0 ∨ s = 1 := by omega
    · exact ⟨_, rfl⟩
    · cases h⟩
  ends := ⟨by decide, fun s hs h => by
    rw [good_states] at hs
    obtain rfl | rfl : s = 0 ∨ s = 1 := by omega
    · exact ⟨_, rfl⟩
    · cases h⟩

theorem good_light : Light (small.map val) good 5 (fun v => v = 3 ∨ v ≠ 0 ∧ ∃ s, ∃ b ∈ ring.arcs s, v = b.olabel) where
  arc := fun s l b h => (good_next h).2.1
  final := fun s w h => by
    rcases s with _ | _ | s
    · cases h; exact .inr (val_small (n := 7) (by omega))
    · cases h; exact .inr (val_small (n := 8) (by omega))
    · cases h
  word := fun w h => by
    rcases h with rfl | ⟨h0, s, b, hb, rfl⟩
    · exact ⟨by decide, val 4, rfl, val_small (by omega)⟩
    · rcases ring_arc hb with rfl | rfl | rfl
      · exact ⟨by decide, val 2, rfl, val_small (by omega)⟩
      · exact absurd rfl h0
      · exact absurd rfl h0

theorem graph_sturdy : Sturdy ⟨machine, ring, none, [0, 0], tenth⟩ (fun _ => False) 80 2 1 :=
  { env_sturdy false 80 (by omega) with
    lmState := fun _ h => h.elim
    lmStart := fun _ h => (nomatch h)
    lmArc := fun _ h => (nomatch h)
    lmFinal := fun _ h => (nomatch h) }

theorem graph_modest : Modest ⟨machine, ring, none, [0, 0], tenth⟩ (fun _ => False) (2 ^ 5) where
  arc := fun s a ha => ((env_modest false).arc s a ha).imp fun _ h => ⟨h.1, h.2.trans (by norm_num)⟩
  final := fun s => ((env_modest false).final s).imp id fun ⟨v, h⟩ => ⟨v, h.1, h.2.trans (by norm_num)⟩
  lmArc := fun _ h => (nomatch h)
  lmFinal := fun _ h => (nomatch h)

-- with that language model the program writes a line for `a.wav`
example (junk : Nat → Junk F32) : ∃ t, 0 ∉ t ∧
    Main.main pc (Loud.Ex.world lmGood) junk [[100, 47, 99], [97, 46, 119, 97, 118]] = ⟨[.line t], .ok ()⟩ :=
  C101_files someLib_laws someNnLib_laws pc rfl fbOf_made rfl rfl rfl (Loud.Ex.world lmGood) [100, 47, 99]
    (App.Ex.confOf Loud.Ex.defs) Loud.Ex.defs (Loud.Ex.model lmGood) (Loud.Ex.conf_file _) Loud.Ex.conf_ok
    (Loud.Ex.installed lmGood_bytes) (Loud.Ex.model_ok lmGood_ok) 80 80 { pc_fits with } (a := 7) (d := 0) net_robust
    (fun x hx => by
      rw [List.eq_of_mem_replicate hx]
      exact ⟨0, none_is, by norm_num⟩) (by omega) graph_sturdy ring_lively graph_modest
    (fun s a ha h0 => by
      rcases ring_arc ha with rfl | rfl | rfl
      · exact ⟨[104, 105], .inl ⟨[(0, [45])], [(2, [60, 115, 62]), (3, [60, 47, 115, 62])], rfl, by decide⟩⟩
      · exact absurd rfl h0
      · exact absurd rfl h0)
    (fun u t bos eos h h1 h2 => by
      cases h
      have e1 := lastOf_some.2 h1
      have e2 := lastOf_some.2 h2
      rw [show lastOf _ sentBegin = some (2 : Int) from by decide +kernel] at e1
      rw [show lastOf _ sentEnd = some (3 : Int) from by decide +kernel] at e2
      cases e1
      cases e2
      exact ⟨good_backoff, good_light⟩)
    (by decide) tenth_is (by decide) [97, 46, 119, 97, 118] (header 48 2 ++ List.replicate 560 3) (List.replicate 560 3) 1 _
    (isWav_of [97] rfl) rfl (header_ok _ _ _) rfl (by rw [List.length_replicate]; decide)
    (by rw [List.length_replicate]; norm_num [Fbank.Spec.numFrames, pc]) junk

end End

end Verif.Ieee
