import Verif.SaySpec
import Verif.MainSpec

/-!
# What the program should say when it fails
-/

namespace Verif.Tell.Spec

open Verif Verif.Text Verif.Msg.Spec Verif.Pcm.Spec

variable {G : Type}

/-- Why an audio file cannot be recognised, with the text: it cannot be opened, it does not begin with a header that is
understood, or the header tells a format that is not supported. -/
inductive AudioFails (w : App.World G) (name : Str) : Str → Prop
  | missing : w.file name = none → AudioFails w name ([117, 110, 97, 98, 108, 101, 32, 116, 111, 32, 111, 112, 101,
  110, 58, 32] ++ name)
  | header {file : List UInt8} {t : Str} : w.file name = some file → HeaderText file t → AudioFails w name t
  | channels {h data : List UInt8} {ch rate bits : Int} {n : Str} : w.file name = some (h ++ data) →
      Header h ch rate ((rate * bits).tdiv 8) (bits.tdiv 8) bits → ch ≠ 1 → Numeral ch n →
      AudioFails w name ([67, 111, 114, 114, 117, 112, 116, 105, 111, 110, 58, 32, 110, 117, 109, 95, 99, 104, 97,
  110, 110, 101, 108, 115, 32, 61, 32] ++ n ++ [32, 110, 111, 116, 32, 115, 117, 112, 112, 111, 114, 116, 101, 100])
  | rate {h data : List UInt8} {ch rate bits : Int} {n : Str} : w.file name = some (h ++ data) →
      Header h ch rate ((rate * bits).tdiv 8) (bits.tdiv 8) bits → rate ≠ 16000 → Numeral rate n →
      AudioFails w name ([67, 111, 114, 114, 117, 112, 116, 105, 111, 110, 58, 32, 115, 97, 109, 112, 108, 101, 95,
  114, 97, 116, 101, 32, 61, 32] ++ n ++ [32, 110, 111, 116, 32, 115, 117, 112, 112, 111, 114, 116, 101, 100])
  | bits {h data : List UInt8} {ch rate bits : Int} {n : Str} : w.file name = some (h ++ data) →
      Header h ch rate ((rate * bits).tdiv 8) (bits.tdiv 8) bits → bits ∉ [8, 16, 32] → Numeral bits n →
      AudioFails w name ([67, 111, 114, 114, 117, 112, 116, 105, 111, 110, 58, 32, 98, 105, 116, 115, 95, 112, 101,
  114, 95, 115, 97, 109, 112, 108, 101, 32, 61, 61, 32, 56, 44, 32, 49, 54, 32, 111, 114, 32, 51, 50, 32, 101, 120,
  112, 101, 99, 116, 101, 100, 44, 32, 98, 117, 116, 32] ++ n ++ [32, 102, 111, 117, 110, 100])

/-- The result line of an entry of a script. -/
def resultLine (p : Main.Spec.ScriptEntry × Str) : Str := p.1.name ++ [32] ++ p.2 ++ [10]

end Verif.Tell.Spec
