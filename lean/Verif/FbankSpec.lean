import Verif.FbankModel

/-!
# What the features of a signal are, independently of the loops of the model
-/

namespace Verif.Fbank.Spec

/-- Element `i` of a signal. -/
def at_ {F : Type} (o : Ops F) (x : List F) (i : Nat) : F := x.getD i o.zero

/-- A windowed frame: remove the mean, subtract 0.97 times the preceding value (of the mean-free frame; the
first value is its own predecessor), multiply by the window. -/
def windowed {F : Type} (o : Ops F) (x : List F) : List F :=
  let mean := o.div (x.foldl o.add o.zero) (o.ofInt x.length)
  let y := fun i => o.sub (at_ o x i) mean
  (List.range x.length).map fun i => o.mul (o.preemph (y i) (y (i - 1))) (at_ o o.window i)

/-- Power spectrum of a packed spectrum `[re 0, re n/2, re 1, im 1, re 2, im 2, …]` of even length: the energies
of bins `0 … n/2`. -/
def power {F : Type} (o : Ops F) (s : List F) (k : Nat) : F :=
  if k = 0 then o.mul (at_ o s 0) (at_ o s 0)
  else if k = s.length / 2 then o.mul (at_ o s 1) (at_ o s 1)
  else o.add (o.mul (at_ o s (2 * k)) (at_ o s (2 * k))) (o.mul (at_ o s (2 * k + 1)) (at_ o s (2 * k + 1)))

/-- A mel energy: the weights of the filter times the energies of the bins from its offset on, added up in
order. -/
def energy {F : Type} (o : Ops F) (s : List F) (bin : Nat × List F) : F :=
  ((List.range bin.2.length).map fun j => o.mul (at_ o bin.2 j) (power o s (bin.1 + j))).foldl o.add o.zero

/-- One feature: the logarithm of the energy, floored. -/
def feature {F : Type} (o : Ops F) (s : List F) (bin : Nat × List F) : F :=
  let e := energy o s bin
  o.log (if o.lt e o.eps then o.eps else e)

/-- Number of frames of a signal of `n` samples. -/
def numFrames (n : Nat) : Nat := if n < 400 then 0 else (n - 400) / 160 + 1

/-- Frame `i` of a signal. -/
def frame {F : Type} (x : List F) (i : Nat) : List F := (x.drop (160 * i)).take 400

/-- All frames of a signal. -/
def frames {F : Type} (x : List F) : List (List F) := (List.range (numFrames x.length)).map (frame x)

/-- The packed spectrum of a frame: the FFT of the windowed frame padded with zeros to 512. -/
def spectrum {F : Type} (o : Ops F) (x : List F) : Exec (List F) :=
  (o.fft (windowed o x ++ List.replicate 112 o.zero) (List.replicate 512 o.zero)).map Prod.fst

/-- The floored energies of all filters are numbers whose logarithm can be taken (no NaN). -/
def loggable {F : Type} (o : Ops F) (s : List F) : Bool :=
  o.bins.all fun b => o.nonneg (if o.lt (energy o s b) o.eps then o.eps else energy o s b)

/-- The feature row of a frame of 400 samples; a NaN energy trips an assertion. -/
def row {F : Type} (o : Ops F) (x : List F) : Exec (List F) := do
  let s ← spectrum o x
  if loggable o s then .ok (o.bins.map (feature o s)) else .error .assert

/-- The tables have the sizes the constructors give them: 400 window values, 40 filters inside bins 0 … 256. -/
def Tables {F : Type} (o : Ops F) : Prop :=
  o.window.length = 400 ∧ o.bins.length = 40 ∧ ∀ b ∈ o.bins, b.1 + b.2.length ≤ 257

/-- The FFT leaves the array sizes alone and uses its buffer as scratch space only. -/
structure ScratchOnly {F : Type} (o : Ops F) : Prop where
  indep : ∀ w b b' : List F, w.length = 512 → b.length = 512 → b'.length = 512 →
    (o.fft w b).map Prod.fst = (o.fft w b').map Prod.fst
  size : ∀ w b w' b' : List F, w.length = 512 → b.length = 512 → o.fft w b = .ok (w', b') →
    w'.length = 512 ∧ b'.length = 512

end Verif.Fbank.Spec
