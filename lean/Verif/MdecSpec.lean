import Verif.MdecModel
import Verif.GcSpec
import Verif.DecoderSpec
import Batteries.Data.List.Basic

/-!
# Uses of the decoder with its memory
-/

namespace Verif.Mdec

open Verif Verif.Fst Verif.Decoder
open Verif.Pool (Addr)

variable {F D : Type}

/-- A use of the decoder with its memory: a new decoder is initialised and fed frames.  Records the frames, what each
`Process` returned, and the cutoffs that governed each frame.  `Before` is what is known of the decoder in each frame
that ends with active tokens, just before word histories may be collected. -/
inductive MRun (e : Env F D) (Before : Mem F → Prop) :
    List (List F) → List Bool → List (Option (Cutoffs F D)) → Mem F → Prop where
  | init {fuel : Nat} {m0 m : Mem F} : new = .ok m0 → initDecoder e fuel m0 = .ok m → MRun e Before [] [] [] m
  | frame {fs : List (List F)} {bs : List Bool} {cs : List (Option (Cutoffs F D))} {m m' : Mem F} {fuel : Nat}
      {f : List F} {b : Bool} {c : Option (Cutoffs F D)} :
      MRun e Before fs bs cs m → process e fuel f m = .ok (b, c, m') →
      (∀ m1, propagate e fuel f m = .ok (true, c, m1) → Before m1) →
      MRun e Before (fs ++ [f]) (bs ++ [b]) (cs ++ [c]) m'

/-- If histories are collected now, no mark of the last collection is left on the node that the collector does not
visit (`Gc.Fresh`). -/
def NoStale (m : Mem F) : Prop := (20 : Int) ∣ m.frames → Gc.Fresh m.words

/-- Some frame of `fs` ends with such a mark, for the first time. -/
def Stale (e : Env F D) (fs : List (List F)) : Prop :=
  ∃ pre f post bs cs m fuel c m1, fs = pre ++ f :: post ∧ MRun e NoStale pre bs cs m ∧
    propagate e fuel f m = .ok (true, c, m1) ∧ ¬ NoStale m1

/-- The language model returns arcs with the label asked for. -/
def LmLabels (e : Env F D) : Prop :=
  ∀ lm, e.lm = some lm → ∀ s l a, lm.getArc s l = .ok (some a) → a.ilabel = l

/-- Numbers for which the hash functions of the state index and of the arc cache do not overflow. -/
def InRange (x : Int) : Prop := 0 ≤ x ∧ x < 67000000

/-- All states and output labels of the graph and all states of the language model are such numbers. -/
structure Small (e : Env F D) : Prop where
  start : InRange e.g.start
  arcs : ∀ s, ∀ a ∈ e.g.arcs s, InRange a.next ∧ InRange a.olabel
  lmStart : ∀ lm, e.lm = some lm → ∀ s, lm.start = .ok s → InRange s
  lmArcs : ∀ lm, e.lm = some lm → ∀ s l a, lm.getArc s l = .ok (some a) → InRange a.next

/-- No frame of `fs` leaves more than 46338 active tokens. -/
def FewTokens (e : Env F D) (fs : List (List F)) : Prop :=
  ∀ n bs cs d, Run e (fs.take n) bs cs d → d.toks.length ≤ 46338

/-- What the active tokens of the decoder with its memory are: those of the decoder with values, with the same states,
costs and words. -/
def SameTokens (m : Mem F) (d : Dec F) : Prop :=
  List.Forall₂ (fun a u => ∃ t, m.tok a = .ok t ∧ t.state = u.state ∧ t.cost = u.cost ∧
    ∀ k, u.hist.length ≤ k → Gc.readWords m.words.mem k t.olabel = .ok u.hist) m.toks d.toks

/-- `n` slots of the token pool are in use, among them the active tokens: handed out (below the bump pointer, in
blocks of 4096) and not on the free list. -/
def InUse (m : Mem F) (n : Int) : Prop :=
  ∃ live : List Addr, live.Nodup ∧ (live.length : Int) = n ∧ (∀ a ∈ m.toks, a ∈ live) ∧ ∀ a, a ∈ live ↔
    ((a.1 < m.pool.arena.curBlock ∧ a.2 < 4096) ∨ (a.1 = m.pool.arena.curBlock ∧ a.2 < m.pool.arena.curPos)) ∧
      a ∉ m.pool.arena.free

/-- In the first `n` frames with active tokens at their ends, no token has a word whenever histories are collected. -/
def Silent (e : Env F D) (fs : List (List F)) (n : Nat) : Prop :=
  ∀ i bs cs d, Run e (fs.take i) bs cs d → d.frames ≤ n → d.frames % 20 = 1 → ∀ t ∈ d.toks, t.hist = []

end Verif.Mdec
