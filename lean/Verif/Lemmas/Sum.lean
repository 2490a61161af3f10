import Verif.Model.Infer
import Mathlib.Algebra.BigOperators.Ring.List
import Mathlib.Algebra.Order.Field.Basic
import Mathlib.Algebra.Order.Field.Rat
import Mathlib.Algebra.BigOperators.Group.List.Lemmas
import Mathlib.Algebra.Order.BigOperators.Group.List
import Mathlib.Data.List.Perm.Basic
import Mathlib.Tactic.Ring
import Mathlib.Tactic.Linarith

/-!
# Sums over assignments
-/

namespace Verif

/-- `f` only looks at the variables in `S` -/
def DependsOn {α : Type} (f : Assign → α) (S : Node → Prop) : Prop :=
  ∀ a b : Assign, (∀ v, S v → a v = b v) → f a = f b

theorem DependsOn.mono {α : Type} {f : Assign → α} {S T : Node → Prop} (h : DependsOn f S) (hs : ∀ v, S v → T v) :
    DependsOn f T := fun a b hab => h a b (fun v hv => hab v (hs v hv))

theorem DependsOn.mul {f h : Assign → Rat} {S : Node → Prop} (hf : DependsOn f S) (hh : DependsOn h S) :
    DependsOn (fun a => f a * h a) S := fun a b hab => by
  simp only [hf a b hab, hh a b hab]

theorem dependsOn_const {α : Type} (c : α) (S : Node → Prop) : DependsOn (fun _ => c) S := fun _ _ _ => rfl

theorem dependsOn_val (v : Node) : DependsOn (fun a => a v) (fun w => w = v) := fun _ _ h => h v rfl

theorem DependsOn.comp {α β : Type} {f : Assign → α} {S : Node → Prop} (h : DependsOn f S) (φ : α → β) :
    DependsOn (fun a => φ (f a)) S := fun a b hab => by simp only [h a b hab]

theorem dependsOn_prod {l : List Node} {k : Node → Assign → Rat} {S : Node → Prop}
    (h : ∀ v ∈ l, DependsOn (k v) S) : DependsOn (fun a => (l.map (fun v => k v a)).prod) S := by
  intro a b hab
  simp only
  congr 1
  exact List.map_congr_left (fun v hv => h v hv a b hab)

theorem dependsOn_sum {α : Type} {l : List α} {k : α → Assign → Rat} {S : Node → Prop}
    (h : ∀ v ∈ l, DependsOn (k v) S) : DependsOn (fun a => (l.map (fun v => k v a)).sum) S := by
  intro a b hab
  simp only
  congr 1
  exact List.map_congr_left (fun v hv => h v hv a b hab)

@[simp] theorem Assign.upd_same (a : Assign) (v : Node) (x : Outcome) : Assign.upd a v x v = x := by
  simp [Assign.upd]

theorem Assign.upd_ne (a : Assign) {v w : Node} (x : Outcome) (h : w ≠ v) : Assign.upd a v x w = a w := by
  simp [Assign.upd, h]

theorem Assign.upd_comm (a : Assign) {v w : Node} (h : v ≠ w) (x y : Outcome) :
    Assign.upd (Assign.upd a v x) w y = Assign.upd (Assign.upd a w y) v x := by
  funext u
  unfold Assign.upd
  by_cases h1 : u = w
  · subst h1; simp [Ne.symm h]
  · by_cases h2 : u = v <;> simp [h1]

theorem Assign.upd_self (a : Assign) (v : Node) : Assign.upd a v (a v) = a := by
  funext u
  unfold Assign.upd
  split
  · rename_i h; rw [h]
  · rfl

variable {dom : Node → List Outcome}

theorem sumOver_congr {vs : List Node} {f h : Assign → Rat} {a : Assign}
    (hf : ∀ b : Assign, (∀ v ∈ vs, b v ∈ dom v) → (∀ v, v ∉ vs → b v = a v) → f b = h b) :
    sumOver dom vs f a = sumOver dom vs h a := by
  induction vs generalizing a with
  | nil => exact hf a (by simp) (by simp)
  | cons v vs ih =>
    unfold sumOver
    congr 1
    apply List.map_congr_left
    intro x hx
    apply ih
    intro b h1 h2
    apply hf
    · intro w hw
      by_cases hwv : w ∈ vs
      · exact h1 w hwv
      · have hwe : w = v := by simpa [hwv] using hw
        subst hwe
        rw [h2 w hwv, Assign.upd_same]
        exact hx
    · intro w hw
      simp only [List.mem_cons, not_or] at hw
      rw [h2 w hw.2, Assign.upd_ne _ _ hw.1]

theorem sumOver_append (vs ws : List Node) (f : Assign → Rat) (a : Assign) :
    sumOver dom (vs ++ ws) f a = sumOver dom vs (fun b => sumOver dom ws f b) a := by
  induction vs generalizing a with
  | nil => rfl
  | cons v vs ih =>
    simp only [List.cons_append, sumOver, ih]

theorem sumOver_add (vs : List Node) (f h : Assign → Rat) (a : Assign) :
    sumOver dom vs (fun b => f b + h b) a = sumOver dom vs f a + sumOver dom vs h a := by
  induction vs generalizing a with
  | nil => rfl
  | cons v vs ih =>
    simp only [sumOver, ih]
    exact List.sum_map_add

theorem sumOver_zero (vs : List Node) (a : Assign) : sumOver dom vs (fun _ => 0) a = 0 := by
  induction vs generalizing a with
  | nil => rfl
  | cons v vs ih => simp [sumOver, ih]

theorem sumOver_sum {α : Type} (vs : List Node) (l : List α) (f : α → Assign → Rat) (a : Assign) :
    sumOver dom vs (fun b => (l.map (fun i => f i b)).sum) a = (l.map (fun i => sumOver dom vs (f i) a)).sum := by
  induction l with
  | nil => simp [sumOver_zero]
  | cons i l ih =>
    simp only [List.map_cons, List.sum_cons, sumOver_add, ih]

/-- a factor that does not look at the summed variables can be pulled out -/
theorem sumOver_mul_left {vs : List Node} {c : Assign → Rat} {S : Node → Prop} (hc : DependsOn c S)
    (hS : ∀ v ∈ vs, ¬ S v) (f : Assign → Rat) (a : Assign) :
    sumOver dom vs (fun b => c b * f b) a = c a * sumOver dom vs f a := by
  induction vs generalizing a with
  | nil => rfl
  | cons v vs ih =>
    simp only [sumOver]
    rw [← List.sum_map_mul_left]
    congr 1
    apply List.map_congr_left
    intro x _
    rw [ih (fun w hw => hS w (by simp [hw]))]
    congr 1
    apply hc
    intro w hw
    exact Assign.upd_ne _ _ (fun e => hS v (by simp) (e ▸ hw))

theorem sumOver_mul_const (vs : List Node) (c : Rat) (f : Assign → Rat) (a : Assign) :
    sumOver dom vs (fun b => c * f b) a = c * sumOver dom vs f a :=
  sumOver_mul_left (dependsOn_const c (fun _ => False)) (fun _ _ h => h) f a

theorem sumOver_depends {vs : List Node} {f : Assign → Rat} {S : Node → Prop} (hf : DependsOn f S) :
    DependsOn (sumOver dom vs f) (fun v => S v ∧ v ∉ vs) := by
  induction vs with
  | nil => exact hf.mono (fun v hv => ⟨hv, by simp⟩)
  | cons v vs ih =>
    intro a b hab
    simp only [sumOver]
    congr 1
    apply List.map_congr_left
    intro x _
    apply ih
    intro w hw
    by_cases e : w = v
    · subst e; simp
    · rw [Assign.upd_ne _ _ e, Assign.upd_ne _ _ e]
      exact hab w ⟨hw.1, by simp [e, hw.2]⟩

theorem sum_map_sum_comm {α β : Type} (l : List α) (m : List β) (f : α → β → Rat) :
    (l.map (fun x => (m.map (fun y => f x y)).sum)).sum = (m.map (fun y => (l.map (fun x => f x y)).sum)).sum := by
  induction l with
  | nil => simp
  | cons x l ih =>
    simp only [List.map_cons, List.sum_cons, ih]
    rw [← List.sum_map_add]

theorem sumOver_perm {vs ws : List Node} (h : vs.Perm ws) (f : Assign → Rat) (a : Assign) :
    sumOver dom vs f a = sumOver dom ws f a := by
  induction h generalizing a with
  | nil => rfl
  | cons v _ ih => simp only [sumOver, ih]
  | swap v w l =>
    simp only [sumOver]
    by_cases e : v = w
    · subst e; rfl
    · rw [sum_map_sum_comm]
      congr 1
      apply List.map_congr_left
      intro x _
      congr 1
      apply List.map_congr_left
      intro y _
      rw [Assign.upd_comm _ (Ne.symm e)]
  | trans _ _ ih1 ih2 => exact (ih1 a).trans (ih2 a)

theorem sumOver_dom_perm {dom' : Node → List Outcome} {vs : List Node} (h : ∀ v ∈ vs, (dom v).Perm (dom' v))
    (f : Assign → Rat) (a : Assign) : sumOver dom vs f a = sumOver dom' vs f a := by
  induction vs generalizing a with
  | nil => rfl
  | cons v vs ih =>
    simp only [sumOver]
    rw [((h v (by simp)).map _).sum_eq]
    congr 1
    apply List.map_congr_left
    intro x _
    exact ih (fun w hw => h w (by simp [hw])) _

theorem sum_nonneg' {α : Type} {l : List α} {f : α → Rat} (h : ∀ x ∈ l, 0 ≤ f x) : 0 ≤ (l.map f).sum := by
  induction l with
  | nil => simp
  | cons x l ih =>
    simp only [List.map_cons, List.sum_cons]
    exact add_nonneg (h x (by simp)) (ih (fun y hy => h y (by simp [hy])))

theorem sumOver_nonneg {vs : List Node} {f : Assign → Rat} {a : Assign}
    (hf : ∀ b : Assign, (∀ v ∈ vs, b v ∈ dom v) → (∀ v, v ∉ vs → b v = a v) → 0 ≤ f b) : 0 ≤ sumOver dom vs f a := by
  induction vs generalizing a with
  | nil => exact hf a (by simp) (by simp)
  | cons v vs ih =>
    simp only [sumOver]
    apply sum_nonneg'
    intro x hx
    apply ih
    intro b h1 h2
    apply hf
    · intro w hw
      by_cases hwv : w ∈ vs
      · exact h1 w hwv
      · have hwe : w = v := by simpa [hwv] using hw
        subst hwe
        rw [h2 w hwv, Assign.upd_same]
        exact hx
    · intro w hw
      simp only [List.mem_cons, not_or] at hw
      rw [h2 w hw.2, Assign.upd_ne _ _ hw.1]

theorem sumOver_le {vs : List Node} {f h : Assign → Rat} {a : Assign}
    (hf : ∀ b : Assign, (∀ v ∈ vs, b v ∈ dom v) → (∀ v, v ∉ vs → b v = a v) → f b ≤ h b) :
    sumOver dom vs f a ≤ sumOver dom vs h a := by
  have := sumOver_nonneg (dom := dom) (vs := vs) (f := fun b => h b + (-1) * f b) (a := a)
    (fun b h1 h2 => by have := hf b h1 h2; linarith)
  rw [sumOver_add, sumOver_mul_const] at this
  linarith

/-- a sum of non-negative terms vanishes only if every term does -/
theorem sumOver_eq_zero {vs : List Node} {f : Assign → Rat} {a : Assign}
    (hf : ∀ b : Assign, (∀ v ∈ vs, b v ∈ dom v) → (∀ v, v ∉ vs → b v = a v) → 0 ≤ f b)
    (h0 : sumOver dom vs f a = 0) :
    ∀ b : Assign, (∀ v ∈ vs, b v ∈ dom v) → (∀ v, v ∉ vs → b v = a v) → f b = 0 := by
  induction vs generalizing a with
  | nil =>
    intro b _ h2
    have : b = a := funext (fun v => h2 v (by simp))
    rw [this]
    exact h0
  | cons v vs ih =>
    intro b h1 h2
    have hup : ∀ x ∈ dom v, ∀ b : Assign, (∀ w ∈ vs, b w ∈ dom w) → (∀ w, w ∉ vs → b w = (Assign.upd a v x) w) →
        (∀ w ∈ v :: vs, b w ∈ dom w) ∧ (∀ w, w ∉ v :: vs → b w = a w) := by
      intro x hx b k1 k2
      constructor
      · intro w hw
        by_cases hwv : w ∈ vs
        · exact k1 w hwv
        · have hwe : w = v := by simpa [hwv] using hw
          subst hwe
          rw [k2 w hwv, Assign.upd_same]
          exact hx
      · intro w hw
        simp only [List.mem_cons, not_or] at hw
        rw [k2 w hw.2, Assign.upd_ne _ _ hw.1]
    simp only [sumOver] at h0
    have hz : ∀ x ∈ dom v, sumOver dom vs f (Assign.upd a v x) = 0 := by
      have hnn : ∀ x ∈ dom v, 0 ≤ sumOver dom vs f (Assign.upd a v x) := fun x hx =>
        sumOver_nonneg (fun b k1 k2 => hf b (hup x hx b k1 k2).1 (hup x hx b k1 k2).2)
      clear hup h1 h2 ih hf
      generalize dom v = l at *
      induction l with
      | nil => simp
      | cons y l ihl =>
        simp only [List.map_cons, List.sum_cons] at h0
        have e1 := hnn y (by simp)
        have e2 := sum_nonneg' (f := fun x => sumOver dom vs f (Assign.upd a v x)) (l := l) (fun x hx => hnn x (by simp [hx]))
        intro x hx
        rcases List.mem_cons.1 hx with rfl | hx
        · linarith
        · exact ihl (by linarith) (fun x hx => hnn x (by simp [hx])) x hx
    by_cases hv : v ∈ vs
    · have hb := h1 v (by simp)
      refine ih (a := Assign.upd a v (b v)) (fun b' k1 k2 => hf b' (hup _ hb b' k1 k2).1 (hup _ hb b' k1 k2).2) (hz _ hb) b
        (fun w hw => h1 w (by simp [hw])) (fun w hw => ?_)
      have : w ≠ v := fun e => hw (e ▸ hv)
      rw [Assign.upd_ne _ _ this]
      exact h2 w (by simp [this, hw])
    · have hb := h1 v (by simp)
      refine ih (a := Assign.upd a v (b v)) (fun b' k1 k2 => hf b' (hup _ hb b' k1 k2).1 (hup _ hb b' k1 k2).2) (hz _ hb) b
        (fun w hw => h1 w (by simp [hw])) (fun w hw => ?_)
      by_cases e : w = v
      · subst e; simp
      · rw [Assign.upd_ne _ _ e]
        exact h2 w (by simp [e, hw])

/-- a product of two functions that look at different summed variables -/
theorem sumOver_mul {us vs : List Node} {f h : Assign → Rat} {S T : Node → Prop} (hf : DependsOn f S)
    (hh : DependsOn h T) (hS : ∀ v ∈ vs, ¬ S v) (hT : ∀ v ∈ us, ¬ T v) (a : Assign) :
    sumOver dom (us ++ vs) (fun b => f b * h b) a = sumOver dom us f a * sumOver dom vs h a := by
  rw [sumOver_append]
  have : (fun b => sumOver dom vs (fun b => f b * h b) b) = fun b => sumOver dom vs h b * f b := by
    funext b
    rw [sumOver_mul_left hf hS, mul_comm]
  rw [this, sumOver_mul_left (sumOver_depends hh) (fun v hv hT' => hT v hv hT'.1), mul_comm]

/-- an indicator picks one term -/
theorem sum_indicator_mul {l : List Outcome} (hn : l.Nodup) {x : Outcome} (hx : x ∈ l) (f : Outcome → Rat) :
    (l.map (fun y => if y = x then f y else 0)).sum = f x := by
  induction l with
  | nil => simp at hx
  | cons y l ih =>
    simp only [List.map_cons, List.sum_cons]
    rw [List.nodup_cons] at hn
    by_cases e : y = x
    · subst e
      have : (l.map (fun z => if z = y then f z else 0)).sum = 0 := by
        apply List.sum_eq_zero
        intro r hr
        obtain ⟨z, hz, rfl⟩ := List.mem_map.1 hr
        rw [if_neg (by rintro rfl; exact hn.1 hz)]
      simp [this]
    · have hxl : x ∈ l := by simpa [Ne.symm e] using hx
      simp [e, ih hn.2 hxl]

/-- fixing variables to the values of the base assignment -/
theorem sumOver_fix {zs : List Node} (hn : zs.Nodup) {a : Assign} (hd : ∀ v ∈ zs, (dom v).Nodup)
    (hz : ∀ v ∈ zs, a v ∈ dom v) {Q : Assign → Prop} [∀ b, Decidable (Q b)]
    (hQ : ∀ b, Q b → ∀ w ∈ zs, b w = a w) (hQa : Q a) (f : Assign → Rat) :
    sumOver dom zs (fun b => if Q b then f b else 0) a = f a := by
  induction zs with
  | nil => simp [sumOver, hQa]
  | cons w ws ih =>
    simp only [sumOver]
    rw [List.nodup_cons] at hn
    have hrest : ∀ x, sumOver dom ws (fun b => if Q b then f b else 0) (Assign.upd a w x) =
        if x = a w then f a else 0 := by
      intro x
      split
      · rename_i e
        rw [e, Assign.upd_self]
        exact ih hn.2 (fun v hv => hd v (by simp [hv])) (fun v hv => hz v (by simp [hv]))
          (fun b hb v hv => hQ b hb v (by simp [hv]))
      · rename_i e
        refine (sumOver_congr (h := fun _ => 0) ?_).trans (sumOver_zero ws _)
        intro b _ h2
        rw [if_neg]
        intro hb
        have := hQ b hb w (by simp)
        rw [h2 w hn.1, Assign.upd_same] at this
        exact e this
    simp only [hrest]
    exact sum_indicator_mul (hd w (by simp)) (hz w (by simp)) (fun _ => f a)

end Verif
