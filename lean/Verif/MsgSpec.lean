import Verif.InitSpec

/-!
# What the text of the last error should tell

A failed `ce_stt_init` has a cause: something is not named in the configuration, cannot be opened, or is not what it
should be.  `Report` lists the causes with the texts.
-/

namespace Verif.Msg.Spec

open Verif Verif.Text Verif.App Verif.App.Spec

/-- What a buffer of 2048 bytes shows of a text: the text up to its first NUL, and at most 2047 bytes. -/
def shown (t : Str) : Str := (t.takeWhile (· ≠ 0)).take 2047

/-- The text that begins with the name of the kind of the error: `IOError: `, `Corruption: `. -/
def Labelled (c : Code) (t : Str) : Prop :=
  (c = .io ∧ [73, 79, 69, 114, 114, 111, 114, 58, 32] <+: t) ∨ (c = .corruption ∧ [67, 111, 114, 114, 117, 112, 116,
  105, 111, 110, 58, 32] <+: t)

/-- A text `Corruption: Unable to find key 'k' in ` without what it is in. -/
def keyText (k : Str) : Str := [67, 111, 114, 114, 117, 112, 116, 105, 111, 110, 58, 32, 85, 110, 97, 98, 108, 101,
  32, 116, 111, 32, 102, 105, 110, 100, 32, 107, 101, 121, 32, 39] ++ k ++ [39, 32, 105, 110, 32]

/-- The text of an error in a file tells the file, or nothing that is special to it.  The texts without file are
`SpliceLayer: unexpected num_indcies`, `section_size == … expected, but … found`,
`2 column expected but … found: …`, `unexpected number string: …` and
`symbol_table: unable to find BOS/EOS symbol`. -/
inductive Mute : Str → Prop
  | splice : Mute [67, 111, 114, 114, 117, 112, 116, 105, 111, 110, 58, 32, 83, 112, 108, 105, 99, 101, 76, 97, 121,
  101, 114, 58, 32, 117, 110, 101, 120, 112, 101, 99, 116, 101, 100, 32, 110, 117, 109, 95, 105, 110, 100, 99, 105,
  101, 115]
  | size {t : Str} : [67, 111, 114, 114, 117, 112, 116, 105, 111, 110, 58, 32, 115, 101, 99, 116, 105, 111, 110, 95,
  115, 105, 122, 101, 32, 61, 61, 32] <+: t → Mute t
  | columns {t : Str} : [67, 111, 114, 114, 117, 112, 116, 105, 111, 110, 58, 32, 50, 32, 99, 111, 108, 117, 109, 110,
  32, 101, 120, 112, 101, 99, 116, 101, 100, 32, 98, 117, 116, 32] <+: t → Mute t
  | number {t : Str} : [67, 111, 114, 114, 117, 112, 116, 105, 111, 110, 58, 32, 117, 110, 101, 120, 112, 101, 99,
  116, 101, 100, 32, 110, 117, 109, 98, 101, 114, 32, 115, 116, 114, 105, 110, 103, 58, 32] <+: t → Mute t
  | sentence : Mute [67, 111, 114, 114, 117, 112, 116, 105, 111, 110, 58, 32, 115, 121, 109, 98, 111, 108, 95, 116,
  97, 98, 108, 101, 58, 32, 117, 110, 97, 98, 108, 101, 32, 116, 111, 32, 102, 105, 110, 100, 32, 66, 79, 83, 47, 69,
  79, 83, 32, 115, 121, 109, 98, 111, 108]

/-- Why `ce_stt_init` failed, with the code and the text of the status.  The configuration `conf` has the definitions
`defs`. -/
inductive Report {G : Type} (w : World G) (conf : Str) (defs : List (Str × Str)) : Code → Str → Prop
  | graphKey : (∀ f, ¬ Names conf defs [102, 115, 116] f) → Report w conf defs .corruption (keyText [102, 115, 116])
  | graph {f : Str} : Names conf defs [102, 115, 116] f → w.readGraph f = none → Report w conf defs .io ([73, 79, 69,
  114, 114, 111, 114, 58, 32] ++ f)
  | key {k : Str} : k ∈ [[110, 110, 101, 116], [112, 114, 105, 111, 114], [116, 105, 100, 50, 112, 100, 102]] → (∀ f,
  ¬ Names conf defs k f) →
      Report w conf defs .corruption (keyText k ++ [39] ++ conf ++ [39])
  | number {k : Str} : k ∈ [[108, 101, 102, 116, 95, 99, 111, 110, 116, 101, 120, 116], [114, 105, 103, 104, 116, 95,
  99, 111, 110, 116, 101, 120, 116], [99, 104, 117, 110, 107, 95, 115, 105, 122, 101], [110, 117, 109, 95, 112, 100,
  102, 115]] → (∀ n, ¬ Sets defs k n) →
      Report w conf defs .corruption (keyText k ++ [39] ++ conf ++ [39])
  | symbolsKey : (∀ f, ¬ Names conf defs [115, 121, 109, 98, 111, 108, 95, 116, 97, 98, 108,
  101] f) → Report w conf defs .corruption (keyText [115, 121, 109, 98, 111, 108, 95, 116, 97, 98, 108, 101])
  | originalKey {f : Str} : Names conf defs [108, 97, 114, 103, 101, 95, 108, 109] f → (∀ f, ¬ Names conf defs [111,
  114, 105, 103, 105, 110, 97, 108, 95, 108, 109] f) →
      Report w conf defs .corruption (keyText [111, 114, 105, 103, 105, 110, 97, 108, 95, 108, 109])
  | file {k f : Str} : k ∈ [[110, 110, 101, 116], [112, 114, 105, 111, 114], [116, 105, 100, 50, 112, 100, 102], [115,
  121, 109, 98, 111, 108, 95, 116, 97, 98, 108, 101], [111, 114, 105, 103, 105, 110, 97, 108, 95, 108, 109], [108, 97,
  114, 103, 101, 95, 108, 109]] →
      Names conf defs k f → w.file f = none → Report w conf defs .io ([73, 79, 69, 114, 114, 111, 114, 58, 32, 85,
  110, 97, 98, 108, 101, 32, 116, 111, 32, 111, 112, 101, 110, 32] ++ f)
  | vector {k f : Str} {bs : List UInt8} {c : Code} {t : Str} : k ∈ [[112, 114, 105, 111, 114], [116, 105, 100, 50,
  112, 100, 102], [111, 114, 105, 103, 105, 110, 97, 108, 95, 108, 109]] →
      Names conf defs k f → w.file f = some bs → ¬ ValidVec (fun _ => True) bs → Labelled c t → f <:+: t →
      Report w conf defs c t
  | network {f : Str} {bs : List UInt8} {c : Code} {t : Str} : Names conf defs [110, 110, 101,
  116] f → w.file f = some bs →
      ¬ ValidNnet bs → Labelled c t → f <:+: t ∨ Mute t → Report w conf defs c t
  | symbols {f : Str} {bs : List UInt8} {c : Code} {t : Str} : Names conf defs [115, 121, 109, 98, 111, 108, 95, 116,
  97, 98, 108, 101] f →
      w.file f = some bs → ¬ ValidSymbols bs → Labelled c t → f <:+: t ∨ Mute t → Report w conf defs c t
  | large {f : Str} {bs : List UInt8} {c : Code} {t : Str} : Names conf defs [108, 97, 114, 103, 101, 95, 108,
  109] f → w.file f = some bs →
      ¬ ValidLm bs → Labelled c t → f <:+: t ∨ Mute t → Report w conf defs c t

end Verif.Msg.Spec
