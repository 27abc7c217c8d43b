import Verif.Model.Quadrature
import Verif.Lemmas.Counting

/-! Transfer of literal tables from rational to real arithmetic. -/

namespace Verif.Lemmas

variable {R S : Type}

/-- A map that commutes with all operations. -/
structure ArithHom (A : Arith R) (B : Arith S) (f : R → S) : Prop where
  lit : ∀ q, B.lit q = f (A.lit q)
  add : ∀ a b, B.add (f a) (f b) = f (A.add a b)
  sub : ∀ a b, B.sub (f a) (f b) = f (A.sub a b)
  mul : ∀ a b, B.mul (f a) (f b) = f (A.mul a b)
  neg : ∀ a, B.neg (f a) = f (A.neg a)
  div : ∀ a b, B.div (f a) (f b) = f <$> A.div a b

theorem ratCast_hom : ArithHom ratArith (exactArith ℝ) (fun q : ℚ => (q : ℝ)) where
  lit _ := rfl
  add a b := by simp [ratArith, exactArith]
  sub a b := by simp [ratArith, exactArith]
  mul a b := by simp [ratArith, exactArith]
  neg a := by simp [ratArith, exactArith]
  div a b := by
    by_cases h : b = 0
    · simp [ratArith, exactArith, h]; rfl
    · simp [ratArith, exactArith, h]

theorem tableAt_map (f : R → S) (t : List R) (i : Int) :
    tableAt (t.map f) i = f <$> tableAt t i := by
  unfold tableAt
  by_cases h : 0 ≤ i ∧ i < t.length
  · rw [dif_pos h, dif_pos (by simpa using h)]; simp
  · rw [dif_neg h, dif_neg (by simpa using h)]; rfl

theorem tableCT_map (f : R → S) (t : List R) (d : R) (i : Int) :
    tableCT (t.map f) (f d) i = f (tableCT t d i) := by
  unfold tableCT
  by_cases h : 0 ≤ i ∧ i < t.length
  · rw [dif_pos h, dif_pos (by simpa using h)]; simp
  · rw [dif_neg h, dif_neg (by simpa using h)]

variable {A : Arith R} {B : Arith S} {f : R → S}

theorem map_bind' {α β γ : Type} (f : β → γ) (x : Res α) (g : α → Res β) :
    f <$> (x >>= g) = x >>= fun a => f <$> g a := by cases x <;> rfl

theorem bind_congr' {α β : Type} (x : Res α) {g g' : α → Res β} (h : ∀ a, g a = g' a) :
    (x >>= g) = x >>= g' := by cases x <;> simp [h]

theorem equal_interval_hom (h : ArithHom A B f) (n : Int) :
    EqualSpacing.interval B n = f <$> EqualSpacing.interval A n := by
  unfold EqualSpacing.interval
  rw [map_bind']
  exact bind_congr' _ fun d => by rw [h.lit, h.lit, h.div]

theorem legendre_coordRT_hom (h : ArithHom A B f) (n i : Int) :
    GaussLegendre.coordRT B n i = f <$> GaussLegendre.coordRT A n i := by
  unfold GaussLegendre.coordRT GaussLegendre.c4 GaussLegendre.invSqrt3 GaussLegendre.sqrt3div5
  split_ifs
  · rw [map_bind']; exact bind_congr' _ fun d => by simp [h.lit, h.neg, h.mul, h.add]
  · simp [h.lit, h.neg, h.mul, h.add]
  · rw [map_bind']
    refine bind_congr' _ fun d => ?_
    rw [map_bind', h.lit, h.lit]
    have := tableAt_map f [A.lit 0.8611363115940525752239464888928095051,
      A.lit 0.3399810435848562648026657591032446872] (Int.shiftRight (Int.land d 2) 1)
    simp only [List.map_cons, List.map_nil] at this
    rw [this]
    cases tableAt [A.lit 0.8611363115940525752239464888928095051,
      A.lit 0.3399810435848562648026657591032446872] (Int.shiftRight (Int.land d 2) 1) <;>
        simp [h.lit, h.mul]
  · simp [h.lit]

/-- Rewrites a table over `B` as the image of a table over `A`. -/
theorem tableCT_hom {t' : List S} {d' : S} {t : List R} {d : R} (ht : t' = t.map f) (hd : d' = f d)
    (i : Int) : Res.ok (tableCT t' d' i) = f <$> Res.ok (tableCT t d i) := by
  rw [ht, hd, tableCT_map]; rfl

theorem legendre_coordCT_hom (h : ArithHom A B f) (n i : Int) :
    GaussLegendre.coordCT B n i = f <$> GaussLegendre.coordCT A n i := by
  unfold GaussLegendre.coordCT GaussLegendre.invSqrt3 GaussLegendre.sqrt3div5
  split_ifs
  · simp [h.lit, h.neg, h.mul, h.add]
  · simp [h.lit, h.neg, h.mul, h.add]
  · exact tableCT_hom (by simp [h.lit, h.neg]) (h.lit _) _
  · simp [h.lit]

theorem lobatto_coordRT_hom (h : ArithHom A B f) (n i : Int) :
    GaussLobatto.coordRT B n i = f <$> GaussLobatto.coordRT A n i := by
  unfold GaussLobatto.coordRT GaussLobatto.invSqrt5 GaussLobatto.sqrt3div7
  split_ifs
  · simp [h.lit, h.neg, h.mul, h.add]
  · simp [h.lit, h.neg, h.add]
  · rw [map_bind']
    exact bind_congr' _ fun d => by simp [h.lit, h.mul, h.sub]
  · rw [← tableAt_map]; simp [h.lit, h.neg]
  · simp [h.lit]

theorem lobatto_coordCT_hom (h : ArithHom A B f) (n i : Int) :
    GaussLobatto.coordCT B n i = f <$> GaussLobatto.coordCT A n i := by
  unfold GaussLobatto.coordCT GaussLobatto.invSqrt5 GaussLobatto.sqrt3div7
  split_ifs
  · simp [h.lit, h.neg, h.mul, h.add]
  · simp [h.lit, h.neg, h.add]
  all_goals first
    | exact tableCT_hom (by simp [h.lit, h.neg]) (h.lit _) _
    | simp [h.lit]

theorem legendre_weightRT_hom (h : ArithHom A B f) (n i : Int) :
    QuadratureGaussLegendre.weightRT B n i = f <$> QuadratureGaussLegendre.weightRT A n i := by
  unfold QuadratureGaussLegendre.weightRT
  rw [map_bind']
  refine bind_congr' _ fun _ => ?_
  split_ifs
  · simp [h.lit]
  · simp [h.lit, h.mul, h.add]
  · rw [map_bind']; exact bind_congr' _ fun d => by simp [h.lit, h.mul, h.add]
  · simp [h.lit]

theorem legendre_weightCT_hom (h : ArithHom A B f) (n i : Int) :
    QuadratureGaussLegendre.weightCT B n i = f <$> QuadratureGaussLegendre.weightCT A n i := by
  unfold QuadratureGaussLegendre.weightCT
  rw [map_bind']
  refine bind_congr' _ fun _ => ?_
  split_ifs
  · simp [h.lit]
  all_goals first
    | exact tableCT_hom (by simp [h.lit, h.sub, h.add]) (h.lit _) _
    | simp [h.lit]

theorem lobatto_weightRT_hom (h : ArithHom A B f) (n i : Int) :
    QuadratureGaussLobatto.weightRT B n i = f <$> QuadratureGaussLobatto.weightRT A n i := by
  unfold QuadratureGaussLobatto.weightRT
  rw [map_bind']
  refine bind_congr' _ fun _ => ?_
  split_ifs
  · simp [h.lit]
  · simp [h.lit, h.add]
  · rw [map_bind']; exact bind_congr' _ fun d => by simp [h.lit, h.mul, h.add]
  · rw [map_bind']; exact bind_congr' _ fun d => by simp [h.lit, h.mul, h.add]
  · simp [h.lit]

theorem lobatto_weightCT_hom (h : ArithHom A B f) (n i : Int) :
    QuadratureGaussLobatto.weightCT B n i = f <$> QuadratureGaussLobatto.weightCT A n i := by
  unfold QuadratureGaussLobatto.weightCT
  rw [map_bind']
  refine bind_congr' _ fun _ => ?_
  split_ifs
  · simp [h.lit]
  · simp [h.lit, h.add]
  all_goals first
    | exact tableCT_hom (by simp [h.lit]) (h.lit _) _
    | simp [h.lit]

end Verif.Lemmas
