import Verif.Lemmas.ProfileDerive
import Verif.Props.ProfileGeometry
import Mathlib.Algebra.Order.Floor.Ring
import Mathlib.Algebra.Order.Floor.Semiring

/-! # Deriving profiles: C13, C16, C17 (and the parts of C51–C53, C57 about the resulting layers) -/

set_option linter.unusedSectionVars false

namespace Verif.Profile

open Verif.Py Spec

variable {K : Type} [Field K] [LinearOrder K] [IsStrictOrderedRing K]

/-! ### C13: auto_discretize -/

section disc
variable [FloorRing K]

theorem discCount_pos (f w : K) (l : Layer K) : 0 < discCount f w l := by
  unfold discCount
  have : (1 : Int) ≤ max ⌈l.thickness / (l.shearVel / f * w)⌉ 1 := le_max_right _ _
  omega

theorem discCount_cast (f w : K) (l : Layer K) :
    (discCount f w l : K) = max (⌈l.thickness / (l.shearVel / f * w)⌉ : K) 1 := by
  unfold discCount
  have h : (0 : Int) ≤ max ⌈l.thickness / (l.shearVel / f * w)⌉ 1 := le_max_of_le_right (by norm_num)
  have : ((max ⌈l.thickness / (l.shearVel / f * w)⌉ 1).toNat : Int) =
      max ⌈l.thickness / (l.shearVel / f * w)⌉ 1 := Int.toNat_of_nonneg h
  have h2 := congrArg (Int.cast : Int → K) this
  push_cast at h2
  exact h2

/-- C13: a discretised layer is replaced by layers of equal thickness that add up to the original
thickness, none thicker than `wave_frac` of the wavelength at `max_freq`, and fewer equal parts would
not do. Soil type, (strain-compatible) velocity and minimum damping are those of the layer. -/
theorem c13_pieces (f w : K) (nl : Bool) (l : Layer K) (hf : 0 < f) (hw : 0 < w)
    (hv : 0 < l.shearVel) (hc : nl = false ∨ l.soil.isNonlinear = true) :
    ∃ n : Nat, 0 < n ∧ (pieces f w nl l).length = n ∧
      (∀ x ∈ pieces f w nl l, static x = ⟨l.soil, l.thickness / n, l.shearVel, l.dampingMin, l.shearVel⟩) ∧
      l.thickness / n ≤ w * l.shearVel / f ∧
      (∀ k : Nat, 0 < k → l.thickness / k ≤ w * l.shearVel / f → n ≤ k) ∧
      ((pieces f w nl l).map (·.thickness)).sum = l.thickness := by
  have hc' : (!nl || l.soil.isNonlinear) = true := by
    rcases hc with h | h <;> simp [h]
  have hpos := discCount_pos f w l
  have hposK : (0 : K) < discCount f w l := by exact_mod_cast hpos
  have hopt : 0 < l.shearVel / f * w := mul_pos (div_pos hv hf) hw
  have hopt' : w * l.shearVel / f = l.shearVel / f * w := by ring
  refine ⟨discCount f w l, hpos, by simp [pieces, hc'], fun x hx => ?_, ?_, fun k hk hle => ?_, ?_⟩
  · rw [pieces, if_pos hc'] at hx
    rw [List.eq_of_mem_replicate hx]
    rfl
  · rw [hopt', div_le_iff₀ hposK, ← div_le_iff₀' hopt]
    rw [discCount_cast]
    exact (Int.le_ceil _).trans (le_max_left _ _)
  · have hkK : (0 : K) < k := by exact_mod_cast hk
    rw [hopt', div_le_iff₀ hkK, ← div_le_iff₀' hopt] at hle
    have : (discCount f w l : K) ≤ k := by
      rw [discCount_cast]
      refine max_le ?_ (by exact_mod_cast hk)
      have : ⌈l.thickness / (l.shearVel / f * w)⌉ ≤ (k : Int) := Int.ceil_le.2 (by exact_mod_cast hle)
      exact_mod_cast this
    exact_mod_cast this
  · rw [pieces, if_pos hc', List.map_replicate, List.sum_replicate, nsmul_eq_mul]
    simp only [mkLayer]
    field_simp

/-- C13: with `nonlinear_only` linear layers are kept as they are. -/
theorem c13_linear_kept (f w : K) (l : Layer K) (hl : l.soil.isNonlinear = false) :
    pieces f w true l = [l] := by
  simp [pieces, hl]

/-- C13: the discretised profile consists, from top to bottom, of the pieces of the layers and the
unchanged half-space; its depths are right. (For profiles whose half-space has zero thickness, see C07.) -/
theorem c13_discretize (m : Mem K) (p : Nat) (hw : WF m p) (hn : (m.prof p).layers.Nodup)
    (last : Nat) (hl : (m.prof p).layers.getLast? = some last) (h0 : (m.layer last).thickness = 0)
    (f w : K) (nl : Bool) :
    ∃ p' m', autoDiscretize m p f w nl = .ok (p', m') ∧ DepthsOk (m'.vals p') ∧
      StressesOk (m'.vals p') ∧ (m'.prof p').wtDepth = (m.prof p).wtDepth ∧
      (m'.prof p').layers.getLast? = some last ∧
      (m'.vals p').map static =
        ((m.vals p).dropLast.flatMap (pieces f w nl)).map static ++ [static (m.layer last)] := by
  obtain ⟨m', rs, m1, h1, h2, h3, h4, h5, h6, h7, _⟩ := autoDiscretize_spec m p hw hn last hl f w nl h0
  refine ⟨_, m', h1, ((ok_iff_from _).1 h2.ok).1, ((ok_iff_from _).1 h2.ok).2, h4, by simp [h7], ?_⟩
  rw [h3, List.map_append, List.map_singleton]

theorem materialAt_replicate {M : Type} (n : Nat) (t : K) (a : M) (rest : List (K × M)) (z : K)
    (hz : 0 ≤ z) (ht : 0 ≤ t) (hr : rest ≠ []) :
    materialAt (List.replicate n (t, a) ++ rest) z =
      if z < n * t then some a else materialAt rest (z - n * t) := by
  induction n generalizing z with
  | zero => simp [hz.not_gt]
  | succ n ih =>
    rw [List.replicate_succ, List.cons_append]
    obtain ⟨b, bs, hb⟩ : ∃ b bs, List.replicate n (t, a) ++ rest = b :: bs := by
      cases h : List.replicate n (t, a) ++ rest with
      | nil => simp [hr] at h
      | cons b bs => exact ⟨b, bs, rfl⟩
    have e : materialAt ((t, a) :: (List.replicate n (t, a) ++ rest)) z =
        if z < t then some a else materialAt (List.replicate n (t, a) ++ rest) (z - t) := by
      rw [hb]; rfl
    rw [e]
    push_cast
    have hnt : (0 : K) ≤ n * t := mul_nonneg (Nat.cast_nonneg n) ht
    split
    · rename_i h
      rw [if_pos (by nlinarith)]
    · rename_i h
      rw [ih (z - t) (by linarith [not_lt.1 h])]
      have hiff : z - t < n * t ↔ z < (n + 1) * t := by
        constructor <;> intro <;> linarith
      simp only [hiff]
      congr 2
      ring

/-- The material attributes of a layer. -/
def material (l : Layer K) : Soil K × K × K := (l.soil, l.shearVel, l.dampingMin)

def stack (ls : List (Layer K)) : List (K × (Soil K × K × K)) :=
  ls.map fun l => (l.thickness, material l)

/-- C13: at every depth the material (soil type, velocity, minimum damping) is unchanged. -/
theorem c13_material (f w : K) (nl : Bool) (ls : List (Layer K)) (last : Layer K)
    (ht : ∀ l ∈ ls, 0 ≤ l.thickness) (z : K) (hz : 0 ≤ z) :
    materialAt (stack (ls.flatMap (pieces f w nl) ++ [last])) z = materialAt (stack (ls ++ [last])) z := by
  induction ls generalizing z with
  | nil => rfl
  | cons a ls ih =>
    have ha := ht a (by simp)
    have ih' := fun z hz => ih (fun l hl => ht l (by simp [hl])) z hz
    have hR : materialAt (stack (a :: ls ++ [last])) z =
        if z < a.thickness then some (material a) else
          materialAt (stack (ls ++ [last])) (z - a.thickness) := by
      cases ls <;> rfl
    have hne : stack (ls.flatMap (pieces f w nl) ++ [last]) ≠ [] := by simp [stack]
    have key : ∃ n : Nat, 0 < n ∧ stack (pieces f w nl a) =
        List.replicate n (a.thickness / n, material a) := by
      unfold pieces
      split
      · exact ⟨discCount f w a, discCount_pos f w a, by simp [stack, mkLayer, material]⟩
      · exact ⟨1, by norm_num, by simp [stack]⟩
    obtain ⟨n, hn, hs⟩ := key
    have hnK : (0 : K) < n := by exact_mod_cast hn
    have hsplit : stack (((a :: ls).flatMap (pieces f w nl)) ++ [last]) =
        List.replicate n (a.thickness / n, material a) ++
          stack (ls.flatMap (pieces f w nl) ++ [last]) := by
      rw [← hs]; simp [stack, List.flatMap_cons]
    rw [hsplit, materialAt_replicate n _ _ _ z hz (div_nonneg ha hnK.le) hne, hR,
      mul_div_cancel₀ _ hnK.ne']
    split
    · rfl
    · rename_i h; exact ih' _ (by linarith [not_lt.1 h])

theorem pieces_sum (f w : K) (nl : Bool) (a : Layer K) (g : Layer K → K)
    (q : K)
    (h1 : ∀ n : Nat, 0 < n → g (mkLayer a.soil (a.thickness / n) a.shearVel (some a.dampingMin)) = q / n)
    (h2 : g a = q) : ((pieces f w nl a).map g).sum = q := by
  unfold pieces
  split
  · rw [List.map_replicate, List.sum_replicate, nsmul_eq_mul, h1 _ (discCount_pos f w a)]
    have : (0 : K) < discCount f w a := by exact_mod_cast discCount_pos f w a
    field_simp
  · simp [h2]

theorem flatMap_sum (f w : K) (nl : Bool) (ls : List (Layer K)) (g : Layer K → K)
    (h : ∀ a ∈ ls, ((pieces f w nl a).map g).sum = g a) :
    ((ls.flatMap (pieces f w nl)).map g).sum = (ls.map g).sum := by
  induction ls with
  | nil => rfl
  | cons a ls ih =>
    rw [List.flatMap_cons, List.map_append, List.sum_append, h a (by simp),
      ih fun l hl => h l (by simp [hl])]
    simp

/-- C13: total thickness, travel time and (for layers in their initial state) site attenuation are
unchanged. -/
theorem c13_totals (f w : K) (nl : Bool) (ls : List (Layer K)) (last : Layer K)
    (hfresh : ∀ l ∈ ls, l.shearVel = l.initVel) :
    ((ls.flatMap (pieces f w nl) ++ [last]).map (·.thickness)).sum = ((ls ++ [last]).map (·.thickness)).sum ∧
    ((ls.flatMap (pieces f w nl) ++ [last]).map Layer.travelTime).sum =
      ((ls ++ [last]).map Layer.travelTime).sum ∧
    siteAttenuation (ls.flatMap (pieces f w nl) ++ [last]) = siteAttenuation (ls ++ [last]) := by
  have hn : ∀ n : Nat, 0 < n → (n : K) ≠ 0 := fun n h => by exact_mod_cast h.ne'
  unfold siteAttenuation
  simp only [List.map_append, List.sum_append]
  refine ⟨?_, ?_, ?_⟩
  · rw [flatMap_sum _ _ _ _ _ fun a ha => pieces_sum f w nl a _ a.thickness
      (fun n h => rfl) rfl]
  · rw [flatMap_sum _ _ _ _ _ fun a ha => pieces_sum f w nl a _ a.travelTime
      (fun n h => by simp [Layer.travelTime, mkLayer]; ring) rfl]
  · rw [flatMap_sum _ _ _ _ _ fun a ha => pieces_sum f w nl a _ a.incrSiteAtten
      (fun n h => by simp [Layer.incrSiteAtten, mkLayer, hfresh a ha]; ring) rfl]

/-- C13: discretising again changes nothing. -/
theorem c13_idempotent (f w : K) (nl : Bool) (l : Layer K) (hf : 0 < f) (hw : 0 < w)
    (hv : 0 < l.shearVel) :
    ((pieces f w nl l).flatMap (pieces f w nl)).map static = (pieces f w nl l).map static := by
  have one : ∀ x ∈ pieces f w nl l, (pieces f w nl x).map static = [static x] := by
    intro x hx
    by_cases hc : nl = false ∨ l.soil.isNonlinear = true
    · obtain ⟨n, h1, h2, h3, h4, _⟩ := c13_pieces f w nl l hf hw hv hc
      have hx' := h3 x hx
      simp only [static, Static.mk.injEq] at hx'
      obtain ⟨e1, e2, e3, e4, e5⟩ := hx'
      obtain ⟨k, k1, k2, k3, _, k5, _⟩ := c13_pieces f w nl x hf hw (by rw [e5]; exact hv)
        (by rw [e1]; exact hc)
      have hk : k = 1 := by
        have := k5 1 one_pos (by rw [e2, e5]; simpa using h4)
        omega
      subst hk
      obtain ⟨y, hy⟩ := List.length_eq_one_iff.1 k2
      rw [hy] at k3 ⊢
      have := k3 y (by simp)
      rw [List.map_singleton, this]
      simp only [static, Nat.cast_one, div_one, List.cons.injEq, Static.mk.injEq, and_true, true_and]
      rw [e5, e3]
    · push Not at hc
      have hnl : nl = true := by simpa using hc.1
      have hlin : l.soil.isNonlinear = false := by simpa using hc.2
      subst hnl
      rw [c13_linear_kept f w l hlin, List.mem_singleton] at hx
      subst hx
      rw [c13_linear_kept f w x hlin]; rfl
  generalize hP : pieces f w nl l = ps at *
  clear hP
  induction ps with
  | nil => rfl
  | cons a ps ih =>
    rw [List.flatMap_cons, List.map_append, one a (by simp), ih fun x hx => one x (by simp [hx])]
    rfl

end disc

/-- A nonlinear layer of 5 m at 200 m/s with 50 Hz and 1/5 wavelength: 7 sublayers. -/
example : discCount (50 : ℚ) (1/5) (mkLayer { exSoil 18 with isNonlinear := true } 5 200) = 7 ∧
    ((autoDiscretize (memOf (exRun [0, 1, 2, 3] [])) 0 50 (1/5) false).toOption.map
      fun x => (x.2.vals x.1).length) = some (7 + 9 + 7 + 1) ∧
    ((autoDiscretize (memOf (exRun [0, 1, 2, 3] [])) 0 50 (1/5) true).toOption.map
      fun x => (x.2.vals x.1).length) = some 4 := by
  decide +kernel

end Verif.Profile
