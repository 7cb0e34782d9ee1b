import Verif.DecoderModel

/-!
# Specification of the beam search

Paths of the decoding graph composed with the language model, their cost in the order the arcs are taken,
and the orderings the optimality results need.
-/

namespace Verif.Decoder

open Verif Verif.Fst

variable {F D : Type}

/-- One word of the language model: `LmMove e s label s' k` moves from LM state `s` to `s'` and changes a
cost by `k`.  An unknown word and no word leave the state alone and cost nothing. -/
inductive LmMove (e : Env F D) : Int → Int → Int → (D → D) → Prop where
  | off {s l : Int} : e.lm = none → LmMove e s l s id
  | silent {s : Int} {lm : IFst F} : e.lm = some lm →
      LmMove e s 0 s (fun c => e.ar.dadd c (e.ar.toD e.ar.zero))
  | word {s l : Int} {lm : IFst F} {a : Arc F} : e.lm = some lm → l ≠ 0 →
      lm.getArc s l = .ok (some a) → LmMove e s l a.next (fun c => e.ar.dadd c (e.ar.toD a.weight))
  | unknown {s l : Int} {lm : IFst F} : e.lm = some lm → l ≠ 0 → lm.getArc s l = .ok none →
      LmMove e s l s (fun c => e.ar.dadd c (e.ar.toD e.ar.zero))

/-- `v` is the scaled log probability the frame gives to the transition `t`. -/
def IsScore (e : Env F D) (frame : List F) (t : Int) (v : F) : Prop :=
  ∃ (ti pi : Nat) (lp : F), t = ti ∧ e.pdf[ti]? = some (pi : Int) ∧ frame[pi]? = some lp ∧
    v = e.ar.fmul e.amScale lp

/-- Number of frames a path consumes. -/
def emitted (p : List (GArc F)) : Nat := (p.filter (fun a => decide (a.ilabel ≠ 0))).length

/-- Words of a path in spoken order. -/
def wordsOf (p : List (GArc F)) : List Int := (p.map (·.olabel)).filter (fun l => decide (l ≠ 0))

/-- Cost of a path of cost `c` extended by an arc of weight `w`, acoustic cost `a` and LM change `k`,
rounded as the code does. -/
def stepCost (e : Env F D) (c w a : F) (k : D → D) : F :=
  e.ar.toF (k (e.ar.toD (e.ar.fadd (e.ar.fadd c w) a)))

/-- `PathTo e s0 frames p s c`: the arcs `p` lead from `s0` to `s`, each emitting arc consumes the next of
`frames`, and the accumulated cost is `c`. -/
inductive PathTo (e : Env F D) (s0 : State) (frames : List (List F)) :
    List (GArc F) → State → F → Prop where
  | nil : PathTo e s0 frames [] s0 e.ar.zero
  | eps {p : List (GArc F)} {s : State} {c : F} {a : GArc F} {l : Int} {k : D → D} :
      PathTo e s0 frames p s c → a ∈ e.g.arcs s.1 → a.ilabel = 0 → LmMove e s.2 a.olabel l k →
      PathTo e s0 frames (p ++ [a]) (a.next, l) (stepCost e c a.weight e.ar.zero k)
  | emit {p : List (GArc F)} {s : State} {c v : F} {a : GArc F} {l : Int} {k : D → D} {f : List F} :
      PathTo e s0 frames p s c → a ∈ e.g.arcs s.1 → a.ilabel ≠ 0 → frames[emitted p]? = some f →
      IsScore e f a.ilabel v → LmMove e s.2 a.olabel l k →
      PathTo e s0 frames (p ++ [a]) (a.next, l) (stepCost e c a.weight (e.ar.fneg v) k)

/-- No path over the frames has a cost that is not a number. -/
def NoNan (e : Env F D) (fn : F → Bool) (s0 : State) (frames : List (List F)) : Prop :=
  ∀ p s c, PathTo e s0 frames p s c → fn c = false

/-- A use of the decoder: a new decoder is initialised and fed frames.  Records the frames, what each
`Process` returned, and the cutoffs that governed each frame. -/
inductive Run (e : Env F D) : List (List F) → List Bool → List (Option (Cutoffs F D)) → Dec F → Prop where
  | init {fuel : Nat} {d : Dec F} : initDecoder e fuel fresh = .ok d → Run e [] [] [] d
  | frame {fs : List (List F)} {bs : List Bool} {cs : List (Option (Cutoffs F D))} {d d' : Dec F}
      {fuel : Nat} {f : List F} {b : Bool} {c : Option (Cutoffs F D)} :
      Run e fs bs cs d → process e fuel f d = .ok (b, c, d') →
      Run e (fs ++ [f]) (bs ++ [b]) (cs ++ [c]) d'

/-- The state a decoder starts in. -/
def StartState (e : Env F D) (s : State) : Prop :=
  s.1 = e.g.start ∧ ((e.lm = none ∧ s.2 = 0) ∨ ∃ lm, e.lm = some lm ∧ lm.start = .ok s.2)

/-- What the decoder takes for granted about its inputs and does not check: transition ids and pdf numbers are not
negative, and from the language model states in `P`, which contain the start and are closed under the words of the
graph, the language model answers queries for the words of the graph. -/
structure Tame (e : Env F D) (P : Int → Prop) : Prop where
  labels : ∀ s, ∀ a ∈ e.g.arcs s, 0 ≤ a.ilabel
  pdfs : ∀ p ∈ e.pdf, 0 ≤ p
  start : ∀ lm s, e.lm = some lm → lm.start = .ok s → P s
  answer : ∀ lm, e.lm = some lm → ∀ s, P s → ∀ g, ∀ a ∈ e.g.arcs g, a.olabel ≠ 0 →
    lm.getArc s a.olabel ≠ .error .ub ∧ ∀ b, lm.getArc s a.olabel = .ok (some b) → P b.next

/-- The state index maps each active state to its own token, and nothing else. -/
def IndexExact (d : Dec F) : Prop :=
  ∀ (s : State) (i : Nat), d.idx.lookup s = some i ↔ ∃ t, d.toks[i]? = some t ∧ t.state = s

/-- The cost by which finished hypotheses are compared. -/
def EndCost (e : Env F D) (eos : Bool) (t : Token F) (c : D) : Prop :=
  (eos = false ∧ c = e.ar.toD t.cost) ∨
  (eos = true ∧ e.lm = none ∧ c = e.ar.dadd (e.ar.toD t.cost) (e.ar.toD (e.g.final t.state.1))) ∨
  (eos = true ∧ ∃ lm w, e.lm = some lm ∧ lm.final t.state.2 = .ok w ∧
    c = e.ar.dadd (e.ar.dadd (e.ar.toD t.cost) (e.ar.toD (e.g.final t.state.1))) (e.ar.toD w))

/-- Laws of `<` on `double` that hold for IEEE including NaN. -/
structure DOrder (ar : Arith F D) : Prop where
  trans : ∀ {a b c : D}, ar.dlt a b = true → ar.dlt b c = true → ar.dlt a c = true
  irrefl : ∀ a : D, ar.dlt a a = false
  inf_max : ∀ {a : D}, ar.isInf a = true → ∀ b, ar.dlt a b = false
  isInf_inf : ar.isInf ar.inf = true

/-- Rounding never moves a value across a `float`, and adding the (positive) beam does not decrease. -/
structure RoundLaws (ar : Arith F D) : Prop where
  toF_ge : ∀ {d : D} {c : F}, ar.dlt d (ar.toD c) = false → ar.flt (ar.toF d) c = false
  beam_pos : ∀ d : D, ar.dlt (ar.dadd d (ar.toD ar.beam)) d = false

/-- `float` division orders fractions that differ by a factor of two or more correctly, if the numbers are those of a
`size_t` (larger ones may be above all `float`). -/
def FracLaw (ar : Arith F D) : Prop :=
  ∀ a b c d : Nat, a < 2 ^ 64 → 0 < b → b < 2 ^ 64 → c < 2 ^ 64 → 0 < d → d < 2 ^ 64 → 2 * (a * d) < c * b →
    ar.flt (ar.fdiv a b) (ar.fdiv c d) = true

/-- The costs can be put in order: on them `<` is a strict weak ordering.  So it is on all `float` but NaN. -/
structure Comparable (ar : Arith F D) (costs : List F) : Prop where
  irrefl : ∀ a ∈ costs, ar.flt a a = false
  trans : ∀ a ∈ costs, ∀ b ∈ costs, ∀ c ∈ costs, ar.flt a b = true → ar.flt b c = true → ar.flt a c = true
  tie : ∀ a ∈ costs, ∀ b ∈ costs, ∀ c ∈ costs, ar.flt a b = false → ar.flt b a = false → ar.flt b c = false →
    ar.flt c b = false → ar.flt a c = false

/-- `fn` and `dn` tell the values that are not numbers: an operation on such a value gives such a value, and it is
neither smaller nor larger than anything.  The infinite value stays infinite when it is rounded. -/
structure NanLaws (ar : Arith F D) (fn : F → Bool) (dn : D → Bool) : Prop where
  addl : ∀ {a : F} (b : F), fn a = true → fn (ar.fadd a b) = true
  addr : ∀ (a : F) {b : F}, fn b = true → fn (ar.fadd a b) = true
  mul : ∀ (a : F) {b : F}, fn b = true → fn (ar.fmul a b) = true
  neg : ∀ {a : F}, fn a = true → fn (ar.fneg a) = true
  toD : ∀ {a : F}, fn a = true → dn (ar.toD a) = true
  toF : ∀ {a : D}, dn a = true → fn (ar.toF a) = true
  daddl : ∀ {a : D} (b : D), dn a = true → dn (ar.dadd a b) = true
  daddr : ∀ (a : D) {b : D}, dn b = true → dn (ar.dadd a b) = true
  fltl : ∀ {a : F} (b : F), fn a = true → ar.flt a b = false
  fltr : ∀ (a : F) {b : F}, fn b = true → ar.flt a b = false
  dltl : ∀ {a : D} (b : D), dn a = true → ar.dlt a b = false
  dltr : ∀ (a : D) {b : D}, dn b = true → ar.dlt a b = false
  inf : ar.finite ar.inf = false
  inf_round : ar.finite (ar.toD (ar.toF ar.inf)) = false

/-- Monotone arithmetic, as that of IEEE 754 is: on numbers comparison is a total preorder, addition and both conversions
respect it.  Only the two laws that fail for NaN are restricted to numbers. -/
structure MonoLaws (ar : Arith F D) (fn : F → Bool) (dn : D → Bool) : Prop where
  fasymm : ∀ {a b : F}, ar.flt a b = true → ar.flt b a = false
  ftrans : ∀ {a b c : F}, ar.flt a b = true → ar.flt b c = true → ar.flt a c = true
  fle : ∀ {a b c : F}, fn b = false → ar.flt b a = false → ar.flt c b = false → ar.flt c a = false
  dasymm : ∀ {a b : D}, ar.dlt a b = true → ar.dlt b a = false
  dtrans : ∀ {a b c : D}, ar.dlt a b = true → ar.dlt b c = true → ar.dlt a c = true
  dle : ∀ {a b c : D}, dn b = false → ar.dlt b a = false → ar.dlt c b = false → ar.dlt c a = false
  fadd : ∀ {a b : F} (c : F), ar.flt b a = false → ar.flt (ar.fadd b c) (ar.fadd a c) = false
  dadd : ∀ {a b : D} (c : D), ar.dlt b a = false → ar.dlt (ar.dadd b c) (ar.dadd a c) = false
  toD : ∀ {a b : F}, ar.flt b a = false → ar.dlt (ar.toD b) (ar.toD a) = false
  toF : ∀ {a b : D}, ar.dlt b a = false → ar.flt (ar.toF b) (ar.toF a) = false

/-- The cutoff of epsilon arcs after `t` frames. -/
def epsCutoff (ar : Arith F D) (cs : List (Option (Cutoffs F D))) : Nat → Option D
  | 0 => some ar.inf
  | t + 1 => (cs[t]?.join).map (fun c => ar.toD (ar.toF c.next))

/-- A path no arc of which is above the cutoff that applied to it. -/
inductive Survives (e : Env F D) (s0 : State) (frames : List (List F)) (cs : List (Option (Cutoffs F D))) :
    List (GArc F) → State → F → Prop where
  | nil : Survives e s0 frames cs [] s0 e.ar.zero
  | eps {p : List (GArc F)} {s : State} {c : F} {a : GArc F} {l : Int} {k : D → D} {cut : D} :
      Survives e s0 frames cs p s c → a ∈ e.g.arcs s.1 → a.ilabel = 0 → LmMove e s.2 a.olabel l k →
      epsCutoff e.ar cs (emitted p) = some cut →
      e.ar.dlt cut (k (e.ar.toD (e.ar.fadd (e.ar.fadd c a.weight) e.ar.zero))) = false →
      Survives e s0 frames cs (p ++ [a]) (a.next, l) (stepCost e c a.weight e.ar.zero k)
  | emit {p : List (GArc F)} {s : State} {c v : F} {a : GArc F} {l : Int} {k : D → D} {f : List F}
      {cut : Cutoffs F D} :
      Survives e s0 frames cs p s c → a ∈ e.g.arcs s.1 → a.ilabel ≠ 0 → frames[emitted p]? = some f →
      IsScore e f a.ilabel v → LmMove e s.2 a.olabel l k → cs[emitted p]? = some (some cut) →
      e.ar.flt cut.weight c = false →
      e.ar.dlt cut.next (e.ar.toD (e.ar.fadd (e.ar.fadd c a.weight) (e.ar.fneg v))) = false →
      Survives e s0 frames cs (p ++ [a]) (a.next, l) (stepCost e c a.weight (e.ar.fneg v) k)

end Verif.Decoder
