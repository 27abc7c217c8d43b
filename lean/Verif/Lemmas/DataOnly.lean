import Verif.Lemmas.Relational
import Verif.Model.Float

/-!
# Results depend on the numbers only, not on the exceptions that have been raised
-/

namespace Verif.Lemmas

/-- The same number, infinity or NaN. -/
def SameDatum (a b : Flt) : Prop := a.datum = b.datum

private theorem round_data (F : FloatFormat) (r s : Bool) (x : ℝ) : (Flt.round F r x).datum = (Flt.round F s x).datum := by
  unfold Flt.round
  split_ifs <;> rfl

private theorem neg_data {a b : Flt} (h : a.datum = b.datum) : a.neg.datum = b.neg.datum := by
  unfold Flt.neg
  rw [h]
  cases b.datum <;> rfl

private theorem add_same (F : FloatFormat) {a b a' b' : Flt} (h : a.datum = b.datum) (h' : a'.datum = b'.datum) :
    (Flt.add F a a').datum = (Flt.add F b b').datum := by
  unfold Flt.add
  rw [h, h']
  cases b.datum <;> cases b'.datum <;> first | rfl | exact round_data .. | (dsimp only; split_ifs <;> rfl)

private theorem mul_same (F : FloatFormat) {a b a' b' : Flt} (h : a.datum = b.datum) (h' : a'.datum = b'.datum) :
    (Flt.mul F a a').datum = (Flt.mul F b b').datum := by
  unfold Flt.mul
  rw [h, h']
  cases b.datum <;> cases b'.datum <;> first | rfl | exact round_data .. | (dsimp only; split_ifs <;> rfl)

private theorem div_same (F : FloatFormat) {a b a' b' : Flt} (h : a.datum = b.datum) (h' : a'.datum = b'.datum) :
    ResRel False SameDatum (Flt.div F a a') (Flt.div F b b') := by
  unfold Flt.div
  rw [h, h']
  cases b.datum <;> cases b'.datum <;>
    first | exact .ok rfl | (dsimp only; refine .ite (.notOk fun _ => by simp) (.ok ?_); first | rfl | exact round_data ..)

theorem data_rel (F : FloatFormat) : ArithRel False (floatArith F) (floatArith F) SameDatum where
  lit _ := rfl
  add h h' := add_same F h h'
  sub h h' := add_same F h (neg_data h')
  mul h h' := mul_same F h h'
  neg h := neg_data h
  div h h' := div_same F h h'

end Verif.Lemmas
