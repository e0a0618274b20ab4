import Verif.PhaseField.AspectProps
import Verif.PhaseField.AllenCahnProps
import Verif.PhaseField.GraphProps

/-!
# C89: output of the phase-field solver and grain statistics
-/
namespace Verif.PhaseField
open Verif

variable {m d : ℕ}

theorem argmax_fold (x : Fin (m + 1) → ℝ) : ∀ (l : List (Fin (m + 1))) (b : Fin (m + 1)), (b :: l).Pairwise (· < ·) →
    let r := l.foldl (fun best o => if x best < x o then o else best) b
    r ∈ b :: l ∧ (∀ o ∈ b :: l, x o ≤ x r) ∧ ∀ o ∈ b :: l, o < r → x o < x r := by
  intro l
  induction l with
  | nil => intro b _; simp
  | cons a l ih =>
    intro b hp
    rw [List.pairwise_cons] at hp
    obtain ⟨hb, hp'⟩ := hp
    have hal := (List.pairwise_cons.mp hp')
    simp only [List.foldl_cons]
    split_ifs with h
    · obtain ⟨h1, h2, h3⟩ := ih a hp'
      refine ⟨List.mem_cons_of_mem _ h1, ?_, ?_⟩
      · intro o ho
        rcases List.mem_cons.mp ho with rfl | ho
        · exact h.le.trans (h2 a (List.mem_cons_self ..))
        · exact h2 o ho
      · intro o ho hlt
        rcases List.mem_cons.mp ho with rfl | ho
        · exact h.trans_le (h2 a (List.mem_cons_self ..))
        · exact h3 o ho hlt
    · have hbl : (b :: l).Pairwise (· < ·) := List.pairwise_cons.mpr ⟨fun y hy => hb y (List.mem_cons_of_mem _ hy), hal.2⟩
      obtain ⟨h1, h2, h3⟩ := ih b hbl
      refine ⟨?_, ?_, ?_⟩
      · rcases List.mem_cons.mp h1 with h1 | h1
        · rw [h1]; exact List.mem_cons_self ..
        · exact List.mem_cons_of_mem _ (List.mem_cons_of_mem _ h1)
      · intro o ho
        rcases List.mem_cons.mp ho with rfl | ho
        · exact h2 _ (List.mem_cons_self ..)
        rcases List.mem_cons.mp ho with rfl | ho
        · exact (not_lt.mp h).trans (h2 b (List.mem_cons_self ..))
        · exact h2 o (List.mem_cons_of_mem _ ho)
      · intro o ho hlt
        rcases List.mem_cons.mp ho with rfl | ho
        · exact h3 _ (List.mem_cons_self ..) hlt
        rcases List.mem_cons.mp ho with rfl | ho
        · exact lt_of_le_of_lt (not_lt.mp h) (h3 b (List.mem_cons_self ..) ((hb _ (List.mem_cons_self ..)).trans hlt))
        · exact h3 o (List.mem_cons_of_mem _ ho) hlt

/-- The orientation recorded for a cell is the first one with the largest order parameter. -/
theorem argmax_spec (x : Fin (m + 1) → ℝ) : (∀ o, x o ≤ x (argmax x)) ∧ ∀ o, o < argmax x → x o < x (argmax x) := by
  have hf : List.finRange (m + 1) = 0 :: (List.finRange m).map Fin.succ := List.finRange_succ
  have hp : (0 :: (List.finRange m).map Fin.succ : List (Fin (m + 1))).Pairwise (· < ·) := by
    rw [← hf]; exact List.pairwise_lt_finRange _
  have h := argmax_fold x _ 0 hp
  have e : argmax x = ((List.finRange m).map Fin.succ).foldl (fun best o => if x best < x o then o else best) 0 := by
    unfold argmax
    rw [hf, List.foldl_cons]
    simp
  rw [e]
  have hm : ∀ o : Fin (m + 1), o ∈ (0 :: (List.finRange m).map Fin.succ : List (Fin (m + 1))) := fun o => by
    rw [← hf]; exact List.mem_finRange o
  exact ⟨fun o => h.2.1 o (hm o), fun o => h.2.2 o (hm o)⟩

theorem argmax_unique (x : Fin (m + 1) → ℝ) (k : Fin (m + 1)) (h1 : ∀ o, x o ≤ x k) (h2 : ∀ o, o < k → x o < x k) : argmax x = k := by
  obtain ⟨a, b⟩ := argmax_spec x
  rcases lt_trichotomy (argmax x) k with h | h | h
  · exact absurd (h2 _ h) (not_lt.mpr (a k))
  · exact h
  · exact absurd (b _ h) (not_lt.mpr (h1 _))

/-- **C89 (recorded orientation).** `ori_inds` of a cell is its dominant orientation, the lowest-numbered one in case of a tie, and nothing else. -/
theorem C89_orientation (P : PfArgs (m + 1) d) (rgb : Fin 3 → Fin (m + 1) → Fin 3 → ℝ) (eta : ℕ → Fin (m + 1) → ℝ) (T : ℕ → ℝ) (n : ℕ)
    (k : Fin (m + 1)) :
    (writeSols P rgb eta T).ori_inds n = k ↔ (∀ o, eta n o ≤ eta n k) ∧ ∀ o, o < k → eta n o < eta n k := by
  constructor
  · rintro rfl; exact argmax_spec (eta n)
  · rintro ⟨h1, h2⟩; exact argmax_unique _ k h1 h2

/-- **C89 (initial file).** The file written for the initial condition records exactly the orientations assigned to the cells. -/
theorem C89_initial (P : PfArgs (m + 1) d) (rgb : Fin 3 → Fin (m + 1) → Fin 3 → ℝ) (N : ℕ) (ori : ℕ → Fin (m + 1)) (T : ℕ → ℝ) {n : ℕ} (hn : n < N) :
    (writeSols P rgb (iniCond N ori) T).ori_inds n = ori n := by
  rw [C89_orientation]
  have h := (C48_one_hot N ori hn).1
  refine ⟨fun o => ?_, fun o ho => ?_⟩
  · rw [h, h, if_pos rfl]; split_ifs <;> norm_num
  · rw [h, h, if_pos rfl, if_neg ho.ne]; norm_num

/-- **C89 (colours).** A cell is black in all three pictures iff it is above the liquidus temperature (for colour tables without black);
otherwise it has the colours of its recorded orientation. -/
theorem C89_colours (P : PfArgs (m + 1) d) (rgb : Fin 3 → Fin (m + 1) → Fin 3 → ℝ) (eta : ℕ → Fin (m + 1) → ℝ) (T : ℕ → ℝ) (n : ℕ) :
    let D := writeSols P rgb eta T
    (P.T_liquidus < T n → D.ipf_x n = 0 ∧ D.ipf_y n = 0 ∧ D.ipf_z n = 0) ∧
    (T n ≤ P.T_liquidus → D.ipf_x n = rgb 0 (D.ori_inds n) ∧ D.ipf_y n = rgb 1 (D.ori_inds n) ∧ D.ipf_z n = rgb 2 (D.ori_inds n)) := by
  intro D
  constructor
  · intro h
    have h' : T n > P.T_liquidus := h
    simp only [D, writeSols, blackOut, h', if_true]
    exact ⟨rfl, rfl, rfl⟩
  · intro h
    have h' : ¬ T n > P.T_liquidus := not_lt.mpr h
    simp only [D, writeSols, blackOut, h', if_false]
    trivial

/-- **C89 (printed percentages).** Both lie between 0 and 100. The first is 0 exactly if no cell changed its dominant orientation
and 100 exactly if every cell did. -/
theorem C89_percent (P : PfArgs (m + 1) d) (N : ℕ) (hN : 0 < N) (eta eta0 : ℕ → Fin (m + 1) → ℝ) (T : ℕ → ℝ) :
    let r := inspectPercents P N eta eta0 T
    (0 ≤ r.1 ∧ r.1 ≤ 100) ∧ (0 ≤ r.2 ∧ r.2 ≤ 100) ∧
    (r.1 = 0 ↔ ∀ n < N, argmax (eta n) = argmax (eta0 n)) ∧ (r.1 = 100 ↔ ∀ n < N, argmax (eta n) ≠ argmax (eta0 n)) ∧
    (r.2 = 100 ↔ ∀ n < N, P.T_liquidus ≤ T n) := by
  have hN' : (0 : ℝ) < N := by exact_mod_cast hN
  have key : ∀ (c : ℕ → Prop) [DecidablePred c], let q := (∑ n ∈ Finset.range N, (if c n then (0 : ℝ) else 1)) / N * 100
      (0 ≤ q ∧ q ≤ 100) ∧ (q = 0 ↔ ∀ n < N, c n) ∧ (q = 100 ↔ ∀ n < N, ¬ c n) := by
    intro c _ q
    have e : (∑ n ∈ Finset.range N, (if c n then (0 : ℝ) else 1)) = ((Finset.range N).filter fun n => ¬ c n).card := by
      rw [Finset.card_filter]; push_cast
      exact Finset.sum_congr rfl fun n _ => by by_cases h : c n <;> simp [h]
    have hle : ((Finset.range N).filter fun n => ¬ c n).card ≤ N := by
      have := Finset.card_filter_le (Finset.range N) fun n => ¬ c n
      rwa [Finset.card_range] at this
    have hle' : (((Finset.range N).filter fun n => ¬ c n).card : ℝ) ≤ N := by exact_mod_cast hle
    simp only [q, e]
    refine ⟨⟨by positivity, ?_⟩, ?_, ?_⟩
    · have : (((Finset.range N).filter fun n => ¬ c n).card : ℝ) / N ≤ 1 := (div_le_one hN').mpr hle'
      linarith
    · constructor
      · intro h n hn
        by_contra hc
        have : 0 < ((Finset.range N).filter fun n => ¬ c n).card := Finset.card_pos.mpr ⟨n, by simp [hn, hc]⟩
        have : (0 : ℝ) < (((Finset.range N).filter fun n => ¬ c n).card : ℝ) / N * 100 := by positivity
        linarith
      · intro h
        have : ((Finset.range N).filter fun n => ¬ c n) = ∅ := by
          rw [Finset.filter_eq_empty_iff]; intro n hn; simpa using h n (Finset.mem_range.mp hn)
        rw [this]; simp
    · constructor
      · intro h n hn
        have h1 : (((Finset.range N).filter fun n => ¬ c n).card : ℝ) / N = 1 := by linarith
        rw [div_eq_one_iff_eq hN'.ne'] at h1
        have h2 : ((Finset.range N).filter fun n => ¬ c n).card = (Finset.range N).card := by
          rw [Finset.card_range]; exact_mod_cast h1
        exact Finset.card_filter_eq_iff.mp h2 n (Finset.mem_range.mpr hn)
      · intro h
        have : ((Finset.range N).filter fun n => ¬ c n) = Finset.range N :=
          Finset.filter_true_of_mem fun n hn => h n (Finset.mem_range.mp hn)
        rw [this, Finset.card_range, div_self hN'.ne']; norm_num
  have k1 := key fun n => argmax (eta0 n) = argmax (eta n)
  have k2 := key fun n => ¬ T n ≥ P.T_liquidus
  simp only [ite_not, not_not] at k2
  refine ⟨k1.1, k2.1, ?_, ?_, k2.2.2⟩
  · exact k1.2.1.trans ⟨fun h n hn => (h n hn).symm, fun h n hn => (h n hn).symm⟩
  · exact k1.2.2.trans ⟨fun h n hn => Ne.symm (h n hn), fun h n hn => Ne.symm (h n hn)⟩

/-! ## Grain statistics -/

/-- Specification: two cells of the grid share a face, both are below the liquidus and have the same dominant orientation. -/
def SameGrainStep (P : PfArgs (m + 1) d) (eta : ℕ → Fin (m + 1) → ℝ) (T : ℕ → ℝ) (a b : ℕ) : Prop :=
  (∃ x y z x' y' z', x < P.Nx ∧ y < P.Ny ∧ z < P.Nz ∧ x' < P.Nx ∧ y' < P.Ny ∧ z' < P.Nz ∧
    a = cellNo P.Nx P.Ny x y z ∧ b = cellNo P.Nx P.Ny x' y' z' ∧ ShareFace (x, y, z) (x', y', z')) ∧
  T a < P.T_liquidus ∧ T b < P.T_liquidus ∧ argmax (eta a) = argmax (eta b)

theorem cellNo_exists (Nx Ny Nz v : ℕ) (h : v < Nz * Ny * Nx) : ∃ x y z, x < Nx ∧ y < Ny ∧ z < Nz ∧ v = cellNo Nx Ny x y z := by
  have hx : 0 < Nx := Nat.pos_of_ne_zero (by rintro rfl; simp at h)
  have hy : 0 < Ny := Nat.pos_of_ne_zero (by rintro rfl; simp at h)
  refine ⟨v % Nx, v / Nx % Ny, v / Nx / Ny, Nat.mod_lt _ hx, Nat.mod_lt _ hy, ?_, ?_⟩
  · rw [Nat.div_lt_iff_lt_mul hy, Nat.div_lt_iff_lt_mul hx]; exact h
  · unfold cellNo
    have h1 := Nat.div_add_mod (v / Nx) Ny
    have h2 := Nat.div_add_mod v Nx
    rw [mul_comm] at h1 h2
    rw [h1, h2]

theorem neighbour_iff (Nx Ny Nz a b : ℕ) : b ∈ computeEdgesInOrder Nx Ny Nz a ↔
    ∃ x y z x' y' z', x < Nx ∧ y < Ny ∧ z < Nz ∧ x' < Nx ∧ y' < Ny ∧ z' < Nz ∧
    a = cellNo Nx Ny x y z ∧ b = cellNo Nx Ny x' y' z' ∧ ShareFace (x, y, z) (x', y', z') := by
  constructor
  · intro h
    obtain ⟨ha, hb⟩ := (C04_well_formed Nx Ny Nz a b).2.2.2 h
    obtain ⟨x, y, z, hx, hy, hz, rfl⟩ := cellNo_exists Nx Ny Nz a ha
    obtain ⟨x', y', z', hx', hy', hz', rfl⟩ := cellNo_exists Nx Ny Nz b hb
    exact ⟨x, y, z, x', y', z', hx, hy, hz, hx', hy', hz', rfl, rfl,
      (C04_neighbours Nx Ny Nz x y z x' y' z' hx hy hz hx' hy' hz').mp h⟩
  · rintro ⟨x, y, z, x', y', z', hx, hy, hz, hx', hy', hz', rfl, rfl, h⟩
    exact (C04_neighbours Nx Ny Nz x y z x' y' z' hx hy hz hx' hy' hz').mpr h

theorem zip_map_same {α β γ : Type*} (l : List α) (f : α → β) (g : α → γ) : (l.map f).zip (l.map g) = l.map fun a => (f a, g a) := by
  induction l with
  | nil => rfl
  | cons a l ih => simp [ih]

/-- **C89 (grain statistics).** Applied to a file written by `write_sols` on the same grid, `process_eta` never fails, and its two lists describe the true grains: the
maximal sets of face-connected cells of equal dominant orientation below the liquidus, every such cell in exactly one of them. The volume of a grain is its number of cells times the cell
volume; the volumes add up to the volume of all cells below the liquidus. -/
theorem C89_grains (P : PfArgs (m + 1) d) (rgb : Fin 3 → Fin (m + 1) → Fin 3 → ℝ) (eta : ℕ → Fin (m + 1) → ℝ) (T : ℕ → ℝ)
    (dom : Fin 3 → ℝ) (points : ℕ → Fin 3 → ℝ) (cells : ℕ → Fin 8 → ℕ) :
    let N := P.Nz * P.Ny * P.Nx
    let cv := dom 0 * dom 1 * dom 2 / (N : ℝ)
    ∃ grains : List (List ℕ), ∃ vols ratios,
      processEta P dom (writeSols P rgb eta T) N points cells = .ok (vols, ratios) ∧
      (∀ g ∈ grains, g ≠ []) ∧
      (∀ v, grains.flatten.count v = if v < N ∧ T v < P.T_liquidus then 1 else 0) ∧
      (∀ u v, u < N → T u < P.T_liquidus → ((∃ g ∈ grains, u ∈ g ∧ v ∈ g) ↔ Relation.ReflTransGen (SameGrainStep P eta T) u v)) ∧
      vols = grains.map (fun g => (g.length : ℝ) * cv) ∧
      ratios = grains.map (fun g => aspectRatio (List.replicate g.length cv) (g.map fun v i => (∑ a, points (cells v a) i) / 8)) ∧
      vols.sum = (((Finset.range N).filter fun v => T v < P.T_liquidus).card : ℝ) * cv := by
  intro N cv
  set G := bfsInput (m := m + 1) P.Nx P.Ny P.Nz (fun v => decide (T v < P.T_liquidus)) (fun v => argmax (eta v)) with hG
  have hs : ∀ a b, b ∈ G.adj a → a ∈ G.adj b :=
    (C51_grid_symmetric P.Nx P.Ny P.Nz (fun v => decide (T v < P.T_liquidus)) (fun v => argmax (eta v))).1
  have hadj : ∀ a, (G.adj a).map Fin.val = computeEdgesInOrder P.Nx P.Ny P.Nz a :=
    (C51_grid_symmetric P.Nx P.Ny P.Nz (fun v => decide (T v < P.T_liquidus)) (fun v => argmax (eta v))).2
  obtain ⟨hpart, hne⟩ := C51_partition G hs
  have hcomp := C51_components G hs
  have hflat : ((bfs G).map (List.map Fin.val)).flatten = (bfs G).flatten.map Fin.val := by rw [List.map_flatten]
  have hlen : ∀ g : List (Fin N), (g.map fun _ => dom 0 * dom 1 * dom 2 / (N : ℝ) * 1) = List.replicate g.length cv := fun g => by
    rw [List.map_const']; simp [cv]
  refine ⟨(bfs G).map (List.map Fin.val), _, _, ?_, ?_, ?_, ?_, rfl, rfl, ?_⟩
  · unfold processEta
    rw [if_pos rfl]
    simp only [computeAspectRatiosAndVols, grainVols, grainCentroids]
    rw [zip_map_same, aspect_fold]
    simp only [List.nil_append, List.map_map, Function.comp_def, List.length_map]
    congr 2
    · refine List.map_congr_left fun g _ => ?_
      show (g.map fun _ => dom 0 * dom 1 * dom 2 / (N : ℝ) * 1).sum = _
      rw [hlen, List.sum_replicate, nsmul_eq_mul]
    · refine List.map_congr_left fun g _ => ?_
      show aspectRatio (g.map fun _ => dom 0 * dom 1 * dom 2 / (N : ℝ) * 1) _ = _
      rw [hlen]
      rfl
  · intro g hg
    obtain ⟨g', hg', rfl⟩ := List.mem_map.mp hg
    simpa using hne g' hg'
  · intro v
    rw [hflat]
    by_cases hv : v < N
    · have := hpart ⟨v, hv⟩
      rw [← List.count_map_of_injective _ Fin.val Fin.val_injective] at this
      simp only at this
      rw [this]
      simp [hG, bfsInput, hv]
    · rw [if_neg (by tauto), List.count_eq_zero]
      intro hm
      obtain ⟨w, -, rfl⟩ := List.mem_map.mp hm
      exact hv w.2
  · intro u v hu hTu
    have hsu : G.nonliquid ⟨u, hu⟩ = true := by simp [hG, bfsInput, hTu]
    have step : ∀ a b : Fin N, Linked G a b ↔ SameGrainStep P eta T a b := by
      intro a b
      unfold Linked SameGrainStep
      rw [← neighbour_iff, ← hadj]
      have : (b : ℕ) ∈ (G.adj a).map Fin.val ↔ b ∈ G.adj a := by
        simp only [List.mem_map]
        exact ⟨fun ⟨c, hc, e⟩ => by rwa [← Fin.ext e], fun h => ⟨b, h, rfl⟩⟩
      rw [this]
      simp [hG, bfsInput]
    have rng : ∀ a b, SameGrainStep P eta T a b → b < N := by
      intro a b h
      exact ((C04_well_formed P.Nx P.Ny P.Nz a b).2.2.2 ((neighbour_iff _ _ _ _ _).mpr h.1)).2
    constructor
    · rintro ⟨g, hg, h1, h2⟩
      obtain ⟨g', hg', rfl⟩ := List.mem_map.mp hg
      obtain ⟨a, ha, rfl⟩ := List.mem_map.mp h1
      obtain ⟨b, hb, rfl⟩ := List.mem_map.mp h2
      have hc := (hcomp a b hsu).mp ⟨g', hg', ha, hb⟩
      exact Relation.ReflTransGen.lift (p := SameGrainStep P eta T) Fin.val (fun a b h => (step a b).mp h) _ _ hc
    · intro h
      have key : ∀ v, Relation.ReflTransGen (SameGrainStep P eta T) u v → ∃ hv : v < N, Connected G ⟨u, hu⟩ ⟨v, hv⟩ := by
        intro v h
        induction h with
        | refl => exact ⟨hu, Relation.ReflTransGen.refl⟩
        | tail _ h2 ih =>
          obtain ⟨hb, hc⟩ := ih
          exact ⟨rng _ _ h2, hc.tail ((step ⟨_, hb⟩ ⟨_, rng _ _ h2⟩).mpr h2)⟩
      obtain ⟨hv, hc⟩ := key v h
      obtain ⟨g, hg, h1, h2⟩ := (hcomp ⟨u, hu⟩ ⟨v, hv⟩ hsu).mpr hc
      exact ⟨g.map Fin.val, List.mem_map_of_mem hg, List.mem_map.mpr ⟨_, h1, rfl⟩, List.mem_map.mpr ⟨_, h2, rfl⟩⟩
  · have hvol := C51_volume G hs fun _ => cv
    unfold grainVols at hvol
    rw [List.map_map] at hvol
    rw [List.map_map]
    have e : (List.sum ∘ fun g : List (Fin N) => g.map fun _ => cv) = ((fun g : List ℕ => (g.length : ℝ) * cv) ∘ List.map Fin.val) := by
      funext g
      simp [Function.comp_def]
    have e2 : (∑ v with G.nonliquid v = true, cv) = (((Finset.range N).filter fun v => T v < P.T_liquidus).card : ℝ) * cv := by
      rw [Finset.sum_const, nsmul_eq_mul]
      congr 2
      refine Finset.card_bij (fun v _ => v.1) ?_ ?_ ?_
      · intro v hv
        rw [Finset.mem_filter] at hv ⊢
        exact ⟨Finset.mem_range.mpr v.2, by simpa [hG, bfsInput] using hv.2⟩
      · intro a _ b _ h; exact Fin.ext h
      · intro v hv
        rw [Finset.mem_filter, Finset.mem_range] at hv
        exact ⟨⟨v, hv.1⟩, by simp [hG, bfsInput, hv.2], rfl⟩
    rw [← e2, ← hvol]
    exact congrArg List.sum (congrArg (fun f => List.map f (bfs G)) e.symm)

/-- **C89 (mismatching grid).** `process_eta` raises iff the number of cells of the file is not `Nz*Ny*Nx`. -/
theorem C89_mismatch (P : PfArgs (m + 1) d) (D : CellData (m + 1)) (num : ℕ) (dom : Fin 3 → ℝ) (points : ℕ → Fin 3 → ℝ) (cells : ℕ → Fin 8 → ℕ) :
    (∃ e, processEta P dom D num points cells = .error e) ↔ num ≠ P.Nz * P.Ny * P.Nx := by
  unfold processEta
  split_ifs with h
  · simp [h]
  · simp [h]

/-- **C89 (the liquidus itself).** A cell exactly at the liquidus temperature is drawn in the colour of its orientation but belongs to no grain: `write_sols` blackens
`T > T_liquidus`, `process_eta` keeps `T < T_liquidus`. -/
theorem C89_at_liquidus (P : PfArgs (m + 1) d) (rgb : Fin 3 → Fin (m + 1) → Fin 3 → ℝ) (eta : ℕ → Fin (m + 1) → ℝ) (T : ℕ → ℝ) (n : ℕ)
    (hT : T n = P.T_liquidus) :
    (writeSols P rgb eta T).ipf_x n = rgb 0 (argmax (eta n)) ∧ ∀ g ∈ bfs (bfsInput P.Nx P.Ny P.Nz
      (fun v => decide ((writeSols P rgb eta T).T v < P.T_liquidus)) (fun v => (writeSols P rgb eta T).ori_inds v)), ∀ v ∈ g, v.1 ≠ n := by
  refine ⟨((C89_colours P rgb eta T n).2 hT.le).1, ?_⟩
  intro g hg v hv he
  set G := bfsInput (m := m + 1) P.Nx P.Ny P.Nz (fun v => decide ((writeSols P rgb eta T).T v < P.T_liquidus))
    (fun v => (writeSols P rgb eta T).ori_inds v) with hG
  have hs : ∀ a b, b ∈ G.adj a → a ∈ G.adj b := (C51_grid_symmetric P.Nx P.Ny P.Nz _ _).1
  have hc := (C51_partition G hs).1 v
  have hz : G.nonliquid v = false := by
    rw [hG]; show decide (T v < P.T_liquidus) = false
    rw [he, hT]; simp
  rw [hz, if_neg (by simp), List.count_eq_zero] at hc
  exact hc (List.mem_flatten.mpr ⟨g, hg, hv⟩)

/-- Instance: two orientations, a tie goes to the lower number. -/
example : argmax (![1, 1] : Fin 2 → ℝ) = 0 := argmax_unique _ _ (by intro o; fin_cases o <;> simp) (fun o ho => absurd ho (Fin.not_lt_zero o))
example : argmax (![1 / 4, 3 / 4] : Fin 2 → ℝ) = 1 := by
  refine argmax_unique _ _ (by intro o; fin_cases o <;> norm_num) ?_
  intro o ho
  have : o = 0 := by rw [Fin.lt_def] at ho; apply Fin.ext; show o.1 = 0; have : ((1 : Fin (1 + 1)) : ℕ) = 1 := rfl; omega
  subst this
  norm_num

end Verif.PhaseField
