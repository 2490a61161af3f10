import Verif.Lemmas.Paths

/-! Motifs and path activity. -/

namespace Verif
open Relation
namespace Graph

theorem no_two_cycle {g : Graph} (ha : g.Acyclic) {a b : Node} (h1 : g.Edge a b) (h2 : g.Edge b a) :
    False := ha a (TransGen.tail (TransGen.single h1) h2)

theorem no_loop {g : Graph} (ha : g.Acyclic) {a : Node} (h1 : g.Edge a a) : False :=
  ha a (TransGen.single h1)

theorem hasEdge_iff {g : Graph} {a b : Node} : g.hasEdge a b = true ↔ g.Edge a b := by
  simp [hasEdge, Edge]

theorem getMotif_check {g : Graph} {p : List Node} (hp : p ⊆ g.nodes) :
    checkAll p g.hasNode .key = .ok () := by
  rw [checkAll_ok]
  intro x hx
  simpa [hasNode] using hp hx

theorem getMotif_split {g : Graph} (ha : g.Acyclic) {l r : List Node} {a b c : Node}
    (hp : l ++ a :: b :: c :: r ⊆ g.nodes) (hab : g.Adj a b) (hbc : g.Adj b c) :
    ∃ m, getMotif g (l ++ a :: b :: c :: r) (l.length + 1) = .ok m ∧ g.MotifOf a b c m := by
  unfold getMotif
  rw [getMotif_check hp]
  have h1 : ¬ (l ++ a :: b :: c :: r).length ≤ l.length + 1 := by simp
  have h2 : ¬ (l ++ a :: b :: c :: r).length = l.length + 1 + 1 := by simp; omega
  have h3 : pyPrev (l ++ a :: b :: c :: r) (l.length + 1) = some a := by simp [pyPrev]
  have h4 : (l ++ a :: b :: c :: r)[l.length + 1]? = some b := by
    rw [List.getElem?_append_right (by omega)]; simp
  have h5 : (l ++ a :: b :: c :: r)[l.length + 1 + 1]? = some c := by
    rw [List.getElem?_append_right (by omega)]
    have : l.length + 1 + 1 - l.length = 2 := by omega
    simp [this]
  simp only [h1, h2, if_false, h3, h4, h5]
  have neg : ∀ x y, g.Edge x y → g.hasEdge x y = true ∧ g.hasEdge y x = false := by
    intro x y h
    refine ⟨hasEdge_iff.2 h, ?_⟩
    by_contra hc
    exact no_two_cycle ha h (hasEdge_iff.1 (by simpa using hc))
  rcases hab with hab | hab <;> rcases hbc with hbc | hbc <;>
    obtain ⟨e1, e2⟩ := neg _ _ hab <;> obtain ⟨e3, e4⟩ := neg _ _ hbc <;>
    simp only [e1, e2, e3, e4, Bool.and_true, Bool.and_false, if_true,
      Bool.false_eq_true, if_false]
  · exact ⟨_, rfl, hab, hbc⟩
  · exact ⟨_, rfl, hab, hbc⟩
  · exact ⟨_, rfl, hab, hbc⟩
  · exact ⟨_, rfl, hab, hbc⟩

theorem idxOf_split {l r : List Node} {a b c : Node} (hn : (l ++ a :: b :: c :: r).Nodup) :
    (l ++ a :: b :: c :: r).idxOf b = l.length + 1 := by
  have he : l ++ a :: b :: c :: r = (l ++ [a]) ++ b :: c :: r := by simp
  rw [he] at hn ⊢
  have hb : b ∉ l ++ [a] := by
    rw [List.nodup_append] at hn
    intro hb
    exact hn.2.2 b hb b (by simp) rfl
  rw [List.idxOf_append_of_notMem hb]
  simp

/-- What `Active` demands of one triple. -/
def TripleOK (g : Graph) (Z : List Node) (a b c : Node) : Prop :=
  (g.Edge a b ∧ g.Edge c b → ∃ z ∈ Z, g.DescEq b z) ∧ (¬ (g.Edge a b ∧ g.Edge c b) → b ∉ Z)

theorem active_iff {g : Graph} {Z p : List Node} :
    g.Active Z p ↔ ∀ l a b c r, p = l ++ a :: b :: c :: r → g.TripleOK Z a b c := Iff.rfl

theorem collider_obs {g : Graph} (hw : g.WF) {b : Node} {Z : List Node} :
    ((g.descendants b ++ [b]).any (fun x => decide (x ∈ Z))) = true ↔ ∃ z ∈ Z, g.DescEq b z := by
  simp only [List.any_eq_true, decide_eq_true_eq, List.mem_append, mem_descendants hw,
    List.mem_singleton]
  constructor
  · rintro ⟨x, hx | rfl, hz⟩
    · exact ⟨x, hz, hx.to_reflTransGen⟩
    · exact ⟨x, hz, ReflTransGen.refl⟩
  · rintro ⟨z, hz, hd⟩
    refine ⟨z, ?_, hz⟩
    rcases reflTransGen_iff_eq_or_transGen.1 hd with h | h
    · exact Or.inr h
    · exact Or.inl h

theorem isActiveLoop_spec {g : Graph} (hw : g.WF) {p Z : List Node} (hp : p ⊆ g.nodes)
    (hc : p.IsChain g.Adj) (hn : p.Nodup) (bs : List Node)
    (hbs : ∀ b ∈ bs, ∃ l a c r, p = l ++ a :: b :: c :: r) :
    ∃ v, isActiveLoop g p Z bs = .ok v ∧
      (v = true ↔ ∀ b ∈ bs, ∀ l a c r, p = l ++ a :: b :: c :: r → g.TripleOK Z a b c) := by
  induction bs with
  | nil => exact ⟨true, rfl, by simp⟩
  | cons b bs ih =>
    obtain ⟨v, hv, hiff⟩ := ih (fun b' hb' => hbs b' (by simp [hb']))
    -- the motif at b is the one of any split
    have key : ∀ l a c r, p = l ++ a :: b :: c :: r →
        ∃ m, getMotif g p (p.idxOf b) = .ok m ∧ g.MotifOf a b c m := by
      intro l a c r he
      have hch : p.IsChain g.Adj := hc
      rw [isChain_iff_split] at hch
      have h1 := hch l a b (c :: r) he
      have h2 := hch (l ++ [a]) b c r (by simp [he])
      rw [he] at hn hp ⊢
      rw [idxOf_split hn]
      exact getMotif_split hw.acyclic hp h1 h2
    obtain ⟨l, a, c, r, he⟩ := hbs b (by simp)
    obtain ⟨m, hm, hmo⟩ := key l a c r he
    unfold isActiveLoop
    rw [hm]
    simp only
    have uniq : ∀ l' a' c' r', p = l' ++ a' :: b :: c' :: r' → g.MotifOf a' b c' m := by
      intro l' a' c' r' he'
      obtain ⟨m', hm', hmo'⟩ := key l' a' c' r' he'
      rw [hm] at hm'
      cases hm'
      exact hmo'
    by_cases hcol : m = .collider
    · subst hcol
      rw [if_neg (by simp)]
      by_cases hobs : ((g.descendants b ++ [b]).any (fun x => decide (x ∈ Z))) = true
      · rw [if_neg (by simp only [true_and]; rw [hobs]; simp)]
        refine ⟨v, hv, ?_⟩
        rw [hiff]
        constructor
        · intro h b' hb' l' a' c' r' he'
          rcases List.mem_cons.1 hb' with rfl | hb'
          · have hu := uniq l' a' c' r' he'
            refine ⟨fun _ => (collider_obs hw).1 hobs, fun h' => absurd hu h'⟩
          · exact h b' hb' l' a' c' r' he'
        · exact fun h b' hb' => h b' (by simp [hb'])
      · rw [if_pos ⟨rfl, by simpa using hobs⟩]
        refine ⟨false, rfl, ?_⟩
        simp only [Bool.false_eq_true, false_iff]
        intro h
        exact hobs ((collider_obs hw).2 ((h b (by simp) l a c r he).1 hmo))
    · have hm4 : m = .fork ∨ m = .forward ∨ m = .backward := by
        cases m with
        | endpoint => exact absurd hmo id
        | collider => exact absurd rfl hcol
        | _ => simp
      have hncol : ∀ l' a' c' r', p = l' ++ a' :: b :: c' :: r' → ¬ (g.Edge a' b ∧ g.Edge c' b) := by
        intro l' a' c' r' he' hh
        have hu := uniq l' a' c' r' he'
        rcases hm4 with rfl | rfl | rfl
        · exact no_two_cycle hw.acyclic hh.1 hu.1
        · exact no_two_cycle hw.acyclic hh.2 hu.2
        · exact no_two_cycle hw.acyclic hh.1 hu.1
      by_cases hbz : b ∈ Z
      · rw [if_pos ⟨hm4, hbz⟩]
        refine ⟨false, rfl, ?_⟩
        simp only [Bool.false_eq_true, false_iff]
        intro h
        exact (h b (by simp) l a c r he).2 (hncol l a c r he) hbz
      · rw [if_neg (fun h => hbz h.2), if_neg (fun h => hcol h.1)]
        refine ⟨v, hv, ?_⟩
        rw [hiff]
        constructor
        · intro h b' hb' l' a' c' r' he'
          rcases List.mem_cons.1 hb' with rfl | hb'
          · exact ⟨fun hh => absurd hh (hncol l' a' c' r' he'), fun _ => hbz⟩
          · exact h b' hb' l' a' c' r' he'
        · exact fun h b' hb' => h b' (by simp [hb'])

theorem mem_middle {p : List Node} (b : Node) :
    b ∈ p.tail.dropLast ↔ ∃ l a c r, p = l ++ a :: b :: c :: r := by
  constructor
  · intro hb
    cases p with
    | nil => simp at hb
    | cons x q =>
      simp only [List.tail_cons] at hb
      have hq : q ≠ [] := by rintro rfl; simp at hb
      obtain ⟨q', y, rfl⟩ := exists_snoc hq
      simp only [List.dropLast_concat] at hb
      obtain ⟨q1, q2, rfl⟩ := List.append_of_mem hb
      obtain ⟨l, a, hla⟩ := exists_snoc (l := x :: q1) (by simp)
      cases hr : q2 ++ [y] with
      | nil => simp at hr
      | cons c r =>
        refine ⟨l, a, c, r, ?_⟩
        have : x :: (q1 ++ b :: q2 ++ [y]) = (x :: q1) ++ b :: (q2 ++ [y]) := by simp
        rw [this, hla, hr]; simp
  · rintro ⟨l, a, c, r, rfl⟩
    cases l with
    | nil => simp
    | cons x l =>
      have : (x :: l ++ a :: b :: c :: r).tail = (l ++ [a, b]) ++ (c :: r) := by simp
      rw [this, List.dropLast_append_of_ne_nil (by simp)]
      simp

theorem isActivePath_spec {g : Graph} (hw : g.WF) {p Z : List Node} (hp : p ⊆ g.nodes)
    (hz : Z ⊆ g.nodes) (hc : p.IsChain g.Adj) (hn : p.Nodup) :
    ∃ v, isActivePath g p Z = .ok v ∧ (v = true ↔ g.Active Z p) := by
  have hck : checkAll (p ++ Z) g.hasNode .key = .ok () := by
    rw [checkAll_ok]
    intro x hx
    rcases List.mem_append.1 hx with hx | hx
    · simpa [hasNode] using hp hx
    · simpa [hasNode] using hz hx
  unfold isActivePath
  rw [hck]
  simp only
  by_cases hlen : p.length < 3
  · rw [if_pos hlen]
    refine ⟨true, rfl, ?_⟩
    simp only [true_iff]
    rintro l a b c r rfl
    simp at hlen
    omega
  · rw [if_neg hlen]
    obtain ⟨v, hv, hiff⟩ := isActiveLoop_spec hw (Z := Z) hp hc hn p.tail.dropLast
      (fun b hb => (mem_middle b).1 hb)
    refine ⟨v, hv, ?_⟩
    rw [hiff, active_iff]
    constructor
    · intro h l a b c r he
      exact h b ((mem_middle b).2 ⟨l, a, c, r, he⟩) l a c r he
    · intro h b _ l a c r he
      exact h l a b c r he

end Graph
end Verif
