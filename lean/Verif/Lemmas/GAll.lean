import Verif.Lemmas.GDense
import Verif.Lemmas.GConv2
import Verif.Lemmas.GViews
/-
  Back-propagation through a layer of any kind.
-/
namespace Godeep
open Spec GoNum

variable {T : Type} [GoNum T]

/-- back-propagation through a layer of every kind is built as specified -/
theorem bpGood : ∀ s : LSpec T, BPGood s
  | .dense n a => bpGood_dense n a
  | .flatten => bpGood_flatten
  | .softMax => bpGood_softMax
  | .norm => bpGood_norm
  | .eNorm => bpGood_eNorm
  | .sub d f t => bpGood_sub d f t
  | .conv nf kw kh sx sy a => bpGood_conv nf kw kh sx sy a
  | .deconv nf kw kh sx sy a => bpGood_deconv nf kw kh sx sy a
  | .maxPool sx sy => bpGood_maxPool sx sy
  | .upSampling k => bpGood_upSampling k

end Godeep
