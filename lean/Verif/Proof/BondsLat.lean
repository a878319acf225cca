import Verif.Proof.Bonds

/-!
# The shells of the lattices

For every lattice the displacements in integer units (`IntGeo`), the bonds of the first shells and the proof that they are the shells.
-/

set_option linter.unusedSimpArgs false
set_option linter.unusedTactic false
set_option linter.unreachableTactic false
set_option linter.unnecessarySeqFocus false

namespace Feyn

theorem box1 {n : ℕ} {p : Fin n → Fin n → (Fin 1 → ℤ) → Prop} (c : ℤ) (h : ∀ a b, ∀ x ∈ Finset.Icc (-c) c, p a b ![x]) (a b : Fin n) (v : Fin 1 → ℤ)
    (hv : ∀ i, -c ≤ v i ∧ v i ≤ c) : p a b v := by
  have := h a b (v 0) (Finset.mem_Icc.2 (hv 0))
  rwa [show ![v 0] = v from by ext i; fin_cases i; rfl] at this

theorem box2 {n : ℕ} {p : Fin n → Fin n → (Fin 2 → ℤ) → Prop} (c : ℤ) (h : ∀ a b, ∀ x ∈ Finset.Icc (-c) c, ∀ y ∈ Finset.Icc (-c) c, p a b ![x, y])
    (a b : Fin n) (v : Fin 2 → ℤ) (hv : ∀ i, -c ≤ v i ∧ v i ≤ c) : p a b v := by
  have := h a b (v 0) (Finset.mem_Icc.2 (hv 0)) (v 1) (Finset.mem_Icc.2 (hv 1))
  rwa [show ![v 0, v 1] = v from by ext i; fin_cases i <;> rfl] at this

theorem box3 {n : ℕ} {p : Fin n → Fin n → (Fin 3 → ℤ) → Prop} (c : ℤ)
    (h : ∀ a b, ∀ x ∈ Finset.Icc (-c) c, ∀ y ∈ Finset.Icc (-c) c, ∀ z ∈ Finset.Icc (-c) c, p a b ![x, y, z])
    (a b : Fin n) (v : Fin 3 → ℤ) (hv : ∀ i, -c ≤ v i ∧ v i ≤ c) : p a b v := by
  have := h a b (v 0) (Finset.mem_Icc.2 (hv 0)) (v 1) (Finset.mem_Icc.2 (hv 1)) (v 2) (Finset.mem_Icc.2 (hv 2))
  rwa [show ![v 0, v 1, v 2] = v from by ext i; fin_cases i <;> rfl] at this

/-- A square that is not too large has a small root. -/
theorem root_le {x M : ℤ} (c : ℤ) (h : x ^ 2 ≤ M) (hc : M < (c + 1) ^ 2) (h0 : 0 ≤ c) : -c ≤ x ∧ x ≤ c := by
  constructor <;> nlinarith

/-! chain -/

def chainD (_ _ : Fin 1) (v : Fin 1 → ℤ) : Fin 1 → ℤ := ![v 0]

def chainInt : IntGeo chainGeo where
  D := chainD
  w := ![1]
  σ := ![1]
  s := 1
  hσ k := by fin_cases k <;> simp
  hs := by norm_num
  hw k := by fin_cases k <;> norm_num [div_pow]
  hD a b v k := by fin_cases k <;> fin_cases a <;> fin_cases b <;> simp [Geometry.disp, chainGeo, chainD, Fin.sum_univ_one] <;> ring

def chainQ (_ _ : Fin 1) (v : Fin 1 → ℤ) : ℤ := (v 0) ^ 2

theorem chainInt_q (a b : Fin 1) (v : Fin 1 → ℤ) : chainInt.q a b v = chainQ a b v := by simp [IntGeo.q, chainInt, chainD, chainQ, Fin.sum_univ_one]

def chainB1 (_ _ : Fin 1) : List (Fin 1 → ℤ) := [![1], ![-1]]
def chainB2 (_ _ : Fin 1) : List (Fin 1 → ℤ) := [![2], ![-2]]

theorem chain_box {a b : Fin 1} {v : Fin 1 → ℤ} (h : chainQ a b v ≤ 4) : ∀ i, -2 ≤ v i ∧ v i ≤ 2 := by
  rw [chainQ] at h
  have h0 := root_le (x := v 0) 2 (M := 4) (by nlinarith) (by norm_num) (by norm_num)
  intro i
  fin_cases i <;> simp only [Fin.zero_eta] <;> omega

theorem chain_key {a b : Fin 1} {v : Fin 1 → ℤ} (h : chainQ a b v ≤ 4) :
    (chainQ a b v < 4 → chainQ a b v ≤ 0 ∨ chainQ a b v = 1) ∧
    (chainQ a b v = 1 → v ∈ chainB1 a b) ∧ (chainQ a b v = 4 → v ∈ chainB2 a b) :=
  box1 (p := fun a b v => (chainQ a b v < 4 → chainQ a b v ≤ 0 ∨ chainQ a b v = 1) ∧
    (chainQ a b v = 1 → v ∈ chainB1 a b) ∧ (chainQ a b v = 4 → v ∈ chainB2 a b)) 2 (by decide +kernel) a b v (chain_box h)

theorem chain_mem1 : ∀ a b, ∀ v ∈ chainB1 a b, chainQ a b v = 1 := by decide +kernel
theorem chain_mem2 : ∀ a b, ∀ v ∈ chainB2 a b, chainQ a b v = 4 := by decide +kernel

theorem chain_shells :
    (∀ a b v, chainGeo.neighbour 1 a b v ↔ v ∈ chainB1 a b) ∧ (∀ a b v, chainGeo.neighbour 2 a b v ↔ v ∈ chainB2 a b) := by
  obtain ⟨e1, e2⟩ := chainInt.two (x := 1) (y := 4) (by norm_num) ⟨0, 0, ![1], by rw [chainInt_q]; decide +kernel⟩ (by norm_num) ⟨0, 0, ![2], by rw [chainInt_q]; decide +kernel⟩
    (fun a b v h => by rw [chainInt_q] at h ⊢; exact (chain_key h.le).1 h)
  have f1 : ∀ a b v, chainGeo.neighbour 1 a b v ↔ v ∈ chainB1 a b := fun a b v => by
    rw [e1, chainInt_q]; exact ⟨fun h => (chain_key (by omega)).2.1 h, chain_mem1 a b v⟩
  refine ⟨f1, fun a b v => ?_⟩
  · rw [e2, chainInt_q]; exact ⟨fun h => (chain_key (by omega)).2.2 h, chain_mem2 a b v⟩

/-! checkerboard -/

def checkerboardOff : Fin 2 → Fin 2 → ℤ := ![![0, 1], ![0, 0]]

def checkerboardD (a b : Fin 2) (v : Fin 2 → ℤ) : Fin 2 → ℤ := ![v 0 + v 1 + (checkerboardOff 0 b - checkerboardOff 0 a), v 0 - v 1]

def checkerboardInt : IntGeo checkerboardGeo where
  D := checkerboardD
  w := ![1, 1]
  σ := ![1, 1]
  s := 1
  hσ k := by fin_cases k <;> simp
  hs := by norm_num
  hw k := by fin_cases k <;> norm_num [div_pow]
  hD a b v k := by fin_cases k <;> fin_cases a <;> fin_cases b <;> simp [Geometry.disp, checkerboardGeo, checkerboardD, checkerboardOff, Fin.sum_univ_two] <;> ring

def checkerboardQ (a b : Fin 2) (v : Fin 2 → ℤ) : ℤ := (v 0 + v 1 + (checkerboardOff 0 b - checkerboardOff 0 a)) ^ 2 + (v 0 - v 1) ^ 2

theorem checkerboardInt_q (a b : Fin 2) (v : Fin 2 → ℤ) : checkerboardInt.q a b v = checkerboardQ a b v := by simp [IntGeo.q, checkerboardInt, checkerboardD, checkerboardQ, Fin.sum_univ_two]

def checkerboardB1 : Fin 2 → Fin 2 → List (Fin 2 → ℤ)
  | 0, 1 => [![0, 0], ![0, -1], ![-1, 0], ![-1, -1]]
  | 1, 0 => [![0, 0], ![0, 1], ![1, 0], ![1, 1]]
  | _, _ => []
def checkerboardB2 : Fin 2 → Fin 2 → List (Fin 2 → ℤ)
  | 0, 0 => [![0, 1], ![1, 0], ![0, -1], ![-1, 0]]
  | 1, 1 => [![0, 1], ![1, 0], ![0, -1], ![-1, 0]]
  | _, _ => []

theorem checkerboard_box {a b : Fin 2} {v : Fin 2 → ℤ} (h : checkerboardQ a b v ≤ 2) : ∀ i, -1 ≤ v i ∧ v i ≤ 1 := by
  rw [checkerboardQ] at h
  have h0 := root_le (x := v 0 + v 1 + (checkerboardOff 0 b - checkerboardOff 0 a)) 1 (M := 2) (by nlinarith [sq_nonneg (v 0 - v 1)]) (by norm_num) (by norm_num)
  have h1 := root_le (x := v 0 - v 1) 1 (M := 2) (by nlinarith [sq_nonneg (v 0 + v 1 + (checkerboardOff 0 b - checkerboardOff 0 a))]) (by norm_num) (by norm_num)
  have o0 : ∀ c, 0 ≤ checkerboardOff 0 c ∧ checkerboardOff 0 c ≤ 1 := by decide
  have o0a := o0 a
  have o0b := o0 b
  intro i
  fin_cases i <;> simp only [Fin.zero_eta, Fin.mk_one] <;> omega

theorem checkerboard_key {a b : Fin 2} {v : Fin 2 → ℤ} (h : checkerboardQ a b v ≤ 2) :
    (checkerboardQ a b v < 2 → checkerboardQ a b v ≤ 0 ∨ checkerboardQ a b v = 1) ∧
    (checkerboardQ a b v = 1 → v ∈ checkerboardB1 a b) ∧ (checkerboardQ a b v = 2 → v ∈ checkerboardB2 a b) :=
  box2 (p := fun a b v => (checkerboardQ a b v < 2 → checkerboardQ a b v ≤ 0 ∨ checkerboardQ a b v = 1) ∧
    (checkerboardQ a b v = 1 → v ∈ checkerboardB1 a b) ∧ (checkerboardQ a b v = 2 → v ∈ checkerboardB2 a b)) 1 (by decide +kernel) a b v (checkerboard_box h)

theorem checkerboard_mem1 : ∀ a b, ∀ v ∈ checkerboardB1 a b, checkerboardQ a b v = 1 := by decide +kernel
theorem checkerboard_mem2 : ∀ a b, ∀ v ∈ checkerboardB2 a b, checkerboardQ a b v = 2 := by decide +kernel

theorem checkerboard_shells :
    (∀ a b v, checkerboardGeo.neighbour 1 a b v ↔ v ∈ checkerboardB1 a b) ∧ (∀ a b v, checkerboardGeo.neighbour 2 a b v ↔ v ∈ checkerboardB2 a b) := by
  obtain ⟨e1, e2⟩ := checkerboardInt.two (x := 1) (y := 2) (by norm_num) ⟨0, 1, ![0, 0], by rw [checkerboardInt_q]; decide +kernel⟩ (by norm_num) ⟨0, 0, ![0, 1], by rw [checkerboardInt_q]; decide +kernel⟩
    (fun a b v h => by rw [checkerboardInt_q] at h ⊢; exact (checkerboard_key h.le).1 h)
  have f1 : ∀ a b v, checkerboardGeo.neighbour 1 a b v ↔ v ∈ checkerboardB1 a b := fun a b v => by
    rw [e1, checkerboardInt_q]; exact ⟨fun h => (checkerboard_key (by omega)).2.1 h, checkerboard_mem1 a b v⟩
  refine ⟨f1, fun a b v => ?_⟩
  · rw [e2, checkerboardInt_q]; exact ⟨fun h => (checkerboard_key (by omega)).2.2 h, checkerboard_mem2 a b v⟩

/-! valence -/

def valenceOff : Fin 2 → Fin 2 → ℤ := ![![0, 0], ![0, 1]]

def valenceD (a b : Fin 2) (v : Fin 2 → ℤ) : Fin 2 → ℤ := ![v 0, 2 * v 1 + (valenceOff 1 b - valenceOff 1 a)]

def valenceInt : IntGeo valenceGeo where
  D := valenceD
  w := ![1, 1]
  σ := ![1, 1]
  s := 1
  hσ k := by fin_cases k <;> simp
  hs := by norm_num
  hw k := by fin_cases k <;> norm_num [div_pow]
  hD a b v k := by fin_cases k <;> fin_cases a <;> fin_cases b <;> simp [Geometry.disp, valenceGeo, valenceD, valenceOff, Fin.sum_univ_two] <;> ring

def valenceQ (a b : Fin 2) (v : Fin 2 → ℤ) : ℤ := (v 0) ^ 2 + (2 * v 1 + (valenceOff 1 b - valenceOff 1 a)) ^ 2

theorem valenceInt_q (a b : Fin 2) (v : Fin 2 → ℤ) : valenceInt.q a b v = valenceQ a b v := by simp [IntGeo.q, valenceInt, valenceD, valenceQ, Fin.sum_univ_two]

def valenceB1 : Fin 2 → Fin 2 → List (Fin 2 → ℤ)
  | 0, 0 => [![-1, 0], ![1, 0]]
  | 0, 1 => [![0, -1], ![0, 0]]
  | 1, 0 => [![0, 0], ![0, 1]]
  | 1, 1 => [![-1, 0], ![1, 0]]
def valenceB2 : Fin 2 → Fin 2 → List (Fin 2 → ℤ)
  | 0, 1 => [![-1, -1], ![-1, 0], ![1, -1], ![1, 0]]
  | 1, 0 => [![-1, 0], ![-1, 1], ![1, 0], ![1, 1]]
  | _, _ => []

theorem valence_box {a b : Fin 2} {v : Fin 2 → ℤ} (h : valenceQ a b v ≤ 2) : ∀ i, -1 ≤ v i ∧ v i ≤ 1 := by
  rw [valenceQ] at h
  have h0 := root_le (x := v 0) 1 (M := 2) (by nlinarith [sq_nonneg (2 * v 1 + (valenceOff 1 b - valenceOff 1 a))]) (by norm_num) (by norm_num)
  have h1 := root_le (x := 2 * v 1 + (valenceOff 1 b - valenceOff 1 a)) 1 (M := 2) (by nlinarith [sq_nonneg (v 0)]) (by norm_num) (by norm_num)
  have o1 : ∀ c, 0 ≤ valenceOff 1 c ∧ valenceOff 1 c ≤ 1 := by decide
  have o1a := o1 a
  have o1b := o1 b
  intro i
  fin_cases i <;> simp only [Fin.zero_eta, Fin.mk_one] <;> omega

theorem valence_key {a b : Fin 2} {v : Fin 2 → ℤ} (h : valenceQ a b v ≤ 2) :
    (valenceQ a b v < 2 → valenceQ a b v ≤ 0 ∨ valenceQ a b v = 1) ∧
    (valenceQ a b v = 1 → v ∈ valenceB1 a b) ∧ (valenceQ a b v = 2 → v ∈ valenceB2 a b) :=
  box2 (p := fun a b v => (valenceQ a b v < 2 → valenceQ a b v ≤ 0 ∨ valenceQ a b v = 1) ∧
    (valenceQ a b v = 1 → v ∈ valenceB1 a b) ∧ (valenceQ a b v = 2 → v ∈ valenceB2 a b)) 1 (by decide +kernel) a b v (valence_box h)

theorem valence_mem1 : ∀ a b, ∀ v ∈ valenceB1 a b, valenceQ a b v = 1 := by decide +kernel
theorem valence_mem2 : ∀ a b, ∀ v ∈ valenceB2 a b, valenceQ a b v = 2 := by decide +kernel

theorem valence_shells :
    (∀ a b v, valenceGeo.neighbour 1 a b v ↔ v ∈ valenceB1 a b) ∧ (∀ a b v, valenceGeo.neighbour 2 a b v ↔ v ∈ valenceB2 a b) := by
  obtain ⟨e1, e2⟩ := valenceInt.two (x := 1) (y := 2) (by norm_num) ⟨0, 0, ![-1, 0], by rw [valenceInt_q]; decide +kernel⟩ (by norm_num) ⟨0, 1, ![-1, -1], by rw [valenceInt_q]; decide +kernel⟩
    (fun a b v h => by rw [valenceInt_q] at h ⊢; exact (valence_key h.le).1 h)
  have f1 : ∀ a b v, valenceGeo.neighbour 1 a b v ↔ v ∈ valenceB1 a b := fun a b v => by
    rw [e1, valenceInt_q]; exact ⟨fun h => (valence_key (by omega)).2.1 h, valence_mem1 a b v⟩
  refine ⟨f1, fun a b v => ?_⟩
  · rw [e2, valenceInt_q]; exact ⟨fun h => (valence_key (by omega)).2.2 h, valence_mem2 a b v⟩

/-! square -/

def squareD (_ _ : Fin 1) (v : Fin 2 → ℤ) : Fin 2 → ℤ := ![v 0, v 1]

def squareInt : IntGeo squareGeo where
  D := squareD
  w := ![1, 1]
  σ := ![1, 1]
  s := 1
  hσ k := by fin_cases k <;> simp
  hs := by norm_num
  hw k := by fin_cases k <;> norm_num [div_pow]
  hD a b v k := by fin_cases k <;> fin_cases a <;> fin_cases b <;> simp [Geometry.disp, squareGeo, squareD, Fin.sum_univ_two] <;> ring

def squareQ (_ _ : Fin 1) (v : Fin 2 → ℤ) : ℤ := (v 0) ^ 2 + (v 1) ^ 2

theorem squareInt_q (a b : Fin 1) (v : Fin 2 → ℤ) : squareInt.q a b v = squareQ a b v := by simp [IntGeo.q, squareInt, squareD, squareQ, Fin.sum_univ_two]

def squareB1 (_ _ : Fin 1) : List (Fin 2 → ℤ) := [![0, 1], ![1, 0], ![-1, 0], ![0, -1]]
def squareB2 (_ _ : Fin 1) : List (Fin 2 → ℤ) := [![1, 1], ![-1, 1], ![1, -1], ![-1, -1]]

theorem square_box {a b : Fin 1} {v : Fin 2 → ℤ} (h : squareQ a b v ≤ 2) : ∀ i, -1 ≤ v i ∧ v i ≤ 1 := by
  rw [squareQ] at h
  have h0 := root_le (x := v 0) 1 (M := 2) (by nlinarith [sq_nonneg (v 1)]) (by norm_num) (by norm_num)
  have h1 := root_le (x := v 1) 1 (M := 2) (by nlinarith [sq_nonneg (v 0)]) (by norm_num) (by norm_num)
  intro i
  fin_cases i <;> simp only [Fin.zero_eta, Fin.mk_one] <;> omega

theorem square_key {a b : Fin 1} {v : Fin 2 → ℤ} (h : squareQ a b v ≤ 2) :
    (squareQ a b v < 2 → squareQ a b v ≤ 0 ∨ squareQ a b v = 1) ∧
    (squareQ a b v = 1 → v ∈ squareB1 a b) ∧ (squareQ a b v = 2 → v ∈ squareB2 a b) :=
  box2 (p := fun a b v => (squareQ a b v < 2 → squareQ a b v ≤ 0 ∨ squareQ a b v = 1) ∧
    (squareQ a b v = 1 → v ∈ squareB1 a b) ∧ (squareQ a b v = 2 → v ∈ squareB2 a b)) 1 (by decide +kernel) a b v (square_box h)

theorem square_mem1 : ∀ a b, ∀ v ∈ squareB1 a b, squareQ a b v = 1 := by decide +kernel
theorem square_mem2 : ∀ a b, ∀ v ∈ squareB2 a b, squareQ a b v = 2 := by decide +kernel

theorem square_shells :
    (∀ a b v, squareGeo.neighbour 1 a b v ↔ v ∈ squareB1 a b) ∧ (∀ a b v, squareGeo.neighbour 2 a b v ↔ v ∈ squareB2 a b) := by
  obtain ⟨e1, e2⟩ := squareInt.two (x := 1) (y := 2) (by norm_num) ⟨0, 0, ![0, 1], by rw [squareInt_q]; decide +kernel⟩ (by norm_num) ⟨0, 0, ![1, 1], by rw [squareInt_q]; decide +kernel⟩
    (fun a b v h => by rw [squareInt_q] at h ⊢; exact (square_key h.le).1 h)
  have f1 : ∀ a b v, squareGeo.neighbour 1 a b v ↔ v ∈ squareB1 a b := fun a b v => by
    rw [e1, squareInt_q]; exact ⟨fun h => (square_key (by omega)).2.1 h, square_mem1 a b v⟩
  refine ⟨f1, fun a b v => ?_⟩
  · rw [e2, squareInt_q]; exact ⟨fun h => (square_key (by omega)).2.2 h, square_mem2 a b v⟩

/-! triangular -/

def triangularD (_ _ : Fin 1) (v : Fin 2 → ℤ) : Fin 2 → ℤ := ![2 * v 0 + v 1, v 1]

noncomputable def triangularInt : IntGeo triangularGeo where
  D := triangularD
  w := ![1, 3]
  σ := ![1 / 2, √3 / 2]
  s := 1 / 4
  hσ k := by fin_cases k <;> simp
  hs := by norm_num
  hw k := by fin_cases k <;> norm_num [div_pow]
  hD a b v k := by fin_cases k <;> fin_cases a <;> fin_cases b <;> simp [Geometry.disp, triangularGeo, triangularD, Fin.sum_univ_two] <;> ring

def triangularQ (_ _ : Fin 1) (v : Fin 2 → ℤ) : ℤ := (2 * v 0 + v 1) ^ 2 + 3 * (v 1) ^ 2

theorem triangularInt_q (a b : Fin 1) (v : Fin 2 → ℤ) : triangularInt.q a b v = triangularQ a b v := by simp [IntGeo.q, triangularInt, triangularD, triangularQ, Fin.sum_univ_two]

def triangularB1 (_ _ : Fin 1) : List (Fin 2 → ℤ) := [![0, 1], ![1, 0], ![1, -1], ![0, -1], ![-1, 0], ![-1, 1]]
def triangularB2 (_ _ : Fin 1) : List (Fin 2 → ℤ) := [![1, 1], ![2, -1], ![1, -2], ![-1, -1], ![-2, 1], ![-1, 2]]

theorem triangular_box {a b : Fin 1} {v : Fin 2 → ℤ} (h : triangularQ a b v ≤ 12) : ∀ i, -2 ≤ v i ∧ v i ≤ 2 := by
  rw [triangularQ] at h
  have h0 := root_le (x := 2 * v 0 + v 1) 3 (M := 12) (by nlinarith [sq_nonneg (v 1)]) (by norm_num) (by norm_num)
  have h1 := root_le (x := v 1) 2 (M := 4) (by nlinarith [sq_nonneg (2 * v 0 + v 1)]) (by norm_num) (by norm_num)
  intro i
  fin_cases i <;> simp only [Fin.zero_eta, Fin.mk_one] <;> omega

theorem triangular_key {a b : Fin 1} {v : Fin 2 → ℤ} (h : triangularQ a b v ≤ 12) :
    (triangularQ a b v < 12 → triangularQ a b v ≤ 0 ∨ triangularQ a b v = 4) ∧
    (triangularQ a b v = 4 → v ∈ triangularB1 a b) ∧ (triangularQ a b v = 12 → v ∈ triangularB2 a b) :=
  box2 (p := fun a b v => (triangularQ a b v < 12 → triangularQ a b v ≤ 0 ∨ triangularQ a b v = 4) ∧
    (triangularQ a b v = 4 → v ∈ triangularB1 a b) ∧ (triangularQ a b v = 12 → v ∈ triangularB2 a b)) 2 (by decide +kernel) a b v (triangular_box h)

theorem triangular_mem1 : ∀ a b, ∀ v ∈ triangularB1 a b, triangularQ a b v = 4 := by decide +kernel
theorem triangular_mem2 : ∀ a b, ∀ v ∈ triangularB2 a b, triangularQ a b v = 12 := by decide +kernel

theorem triangular_shells :
    (∀ a b v, triangularGeo.neighbour 1 a b v ↔ v ∈ triangularB1 a b) ∧ (∀ a b v, triangularGeo.neighbour 2 a b v ↔ v ∈ triangularB2 a b) := by
  obtain ⟨e1, e2⟩ := triangularInt.two (x := 4) (y := 12) (by norm_num) ⟨0, 0, ![0, 1], by rw [triangularInt_q]; decide +kernel⟩ (by norm_num) ⟨0, 0, ![1, 1], by rw [triangularInt_q]; decide +kernel⟩
    (fun a b v h => by rw [triangularInt_q] at h ⊢; exact (triangular_key h.le).1 h)
  have f1 : ∀ a b v, triangularGeo.neighbour 1 a b v ↔ v ∈ triangularB1 a b := fun a b v => by
    rw [e1, triangularInt_q]; exact ⟨fun h => (triangular_key (by omega)).2.1 h, triangular_mem1 a b v⟩
  refine ⟨f1, fun a b v => ?_⟩
  · rw [e2, triangularInt_q]; exact ⟨fun h => (triangular_key (by omega)).2.2 h, triangular_mem2 a b v⟩

/-! asymmetric -/

def asymmetricOff : Fin 2 → Fin 3 → ℤ := ![![0, 1, 1], ![0, 1, -1]]

def asymmetricD (a b : Fin 3) (v : Fin 2 → ℤ) : Fin 2 → ℤ := ![2 * v 0 + v 1 + (asymmetricOff 0 b - asymmetricOff 0 a), 3 * v 1 + (asymmetricOff 1 b - asymmetricOff 1 a)]

noncomputable def asymmetricInt : IntGeo asymmetricGeo where
  D := asymmetricD
  w := ![3, 1]
  σ := ![1 / 2, √3 / 6]
  s := 1 / 12
  hσ k := by fin_cases k <;> simp
  hs := by norm_num
  hw k := by fin_cases k <;> norm_num [div_pow]
  hD a b v k := by
    have h3 : (√3)⁻¹ = √3 / 3 := by
      have : √3 * √3 = (3 : ℝ) := Real.mul_self_sqrt (by norm_num)
      field_simp
      linarith
    fin_cases k <;> fin_cases a <;> fin_cases b <;> simp [Geometry.disp, asymmetricGeo, asymmetricD, asymmetricOff, Fin.sum_univ_two] <;> (try simp only [div_eq_mul_inv, h3]) <;> ring

def asymmetricQ (a b : Fin 3) (v : Fin 2 → ℤ) : ℤ := 3 * (2 * v 0 + v 1 + (asymmetricOff 0 b - asymmetricOff 0 a)) ^ 2 + (3 * v 1 + (asymmetricOff 1 b - asymmetricOff 1 a)) ^ 2

theorem asymmetricInt_q (a b : Fin 3) (v : Fin 2 → ℤ) : asymmetricInt.q a b v = asymmetricQ a b v := by simp [IntGeo.q, asymmetricInt, asymmetricD, asymmetricQ, Fin.sum_univ_two]

def asymmetricB1 : Fin 3 → Fin 3 → List (Fin 2 → ℤ)
  | 0, 1 => [![0, 0], ![0, -1], ![-1, 0]]
  | 0, 2 => [![0, 0], ![-1, 1], ![-1, 0]]
  | 1, 0 => [![0, 0], ![0, 1], ![1, 0]]
  | 1, 2 => [![0, 0], ![0, 1], ![-1, 1]]
  | 2, 0 => [![0, 0], ![1, 0], ![1, -1]]
  | 2, 1 => [![0, 0], ![1, -1], ![0, -1]]
  | _, _ => []
def asymmetricB2 : Fin 3 → Fin 3 → List (Fin 2 → ℤ)
  | 0, 0 => [![-1, 0], ![-1, 1], ![0, -1], ![0, 1], ![1, -1], ![1, 0]]
  | 1, 1 => [![-1, 0], ![-1, 1], ![0, -1], ![0, 1], ![1, -1], ![1, 0]]
  | 2, 2 => [![-1, 0], ![-1, 1], ![0, -1], ![0, 1], ![1, -1], ![1, 0]]
  | _, _ => []

theorem asymmetric_box {a b : Fin 3} {v : Fin 2 → ℤ} (h : asymmetricQ a b v ≤ 12) : ∀ i, -2 ≤ v i ∧ v i ≤ 2 := by
  rw [asymmetricQ] at h
  have h0 := root_le (x := 2 * v 0 + v 1 + (asymmetricOff 0 b - asymmetricOff 0 a)) 2 (M := 4) (by nlinarith [sq_nonneg (3 * v 1 + (asymmetricOff 1 b - asymmetricOff 1 a))]) (by norm_num) (by norm_num)
  have h1 := root_le (x := 3 * v 1 + (asymmetricOff 1 b - asymmetricOff 1 a)) 3 (M := 12) (by nlinarith [sq_nonneg (2 * v 0 + v 1 + (asymmetricOff 0 b - asymmetricOff 0 a))]) (by norm_num) (by norm_num)
  have o0 : ∀ c, 0 ≤ asymmetricOff 0 c ∧ asymmetricOff 0 c ≤ 1 := by decide
  have o0a := o0 a
  have o0b := o0 b
  have o1 : ∀ c, -1 ≤ asymmetricOff 1 c ∧ asymmetricOff 1 c ≤ 1 := by decide
  have o1a := o1 a
  have o1b := o1 b
  intro i
  fin_cases i <;> simp only [Fin.zero_eta, Fin.mk_one] <;> omega

theorem asymmetric_key {a b : Fin 3} {v : Fin 2 → ℤ} (h : asymmetricQ a b v ≤ 12) :
    (asymmetricQ a b v < 12 → asymmetricQ a b v ≤ 0 ∨ asymmetricQ a b v = 4) ∧
    (asymmetricQ a b v = 4 → v ∈ asymmetricB1 a b) ∧ (asymmetricQ a b v = 12 → v ∈ asymmetricB2 a b) :=
  box2 (p := fun a b v => (asymmetricQ a b v < 12 → asymmetricQ a b v ≤ 0 ∨ asymmetricQ a b v = 4) ∧
    (asymmetricQ a b v = 4 → v ∈ asymmetricB1 a b) ∧ (asymmetricQ a b v = 12 → v ∈ asymmetricB2 a b)) 2 (by decide +kernel) a b v (asymmetric_box h)

theorem asymmetric_mem1 : ∀ a b, ∀ v ∈ asymmetricB1 a b, asymmetricQ a b v = 4 := by decide +kernel
theorem asymmetric_mem2 : ∀ a b, ∀ v ∈ asymmetricB2 a b, asymmetricQ a b v = 12 := by decide +kernel

theorem asymmetric_shells :
    (∀ a b v, asymmetricGeo.neighbour 1 a b v ↔ v ∈ asymmetricB1 a b) ∧ (∀ a b v, asymmetricGeo.neighbour 2 a b v ↔ v ∈ asymmetricB2 a b) := by
  obtain ⟨e1, e2⟩ := asymmetricInt.two (x := 4) (y := 12) (by norm_num) ⟨0, 1, ![0, 0], by rw [asymmetricInt_q]; decide +kernel⟩ (by norm_num) ⟨0, 0, ![-1, 0], by rw [asymmetricInt_q]; decide +kernel⟩
    (fun a b v h => by rw [asymmetricInt_q] at h ⊢; exact (asymmetric_key h.le).1 h)
  have f1 : ∀ a b v, asymmetricGeo.neighbour 1 a b v ↔ v ∈ asymmetricB1 a b := fun a b v => by
    rw [e1, asymmetricInt_q]; exact ⟨fun h => (asymmetric_key (by omega)).2.1 h, asymmetric_mem1 a b v⟩
  refine ⟨f1, fun a b v => ?_⟩
  · rw [e2, asymmetricInt_q]; exact ⟨fun h => (asymmetric_key (by omega)).2.2 h, asymmetric_mem2 a b v⟩

/-! honeycomb -/

def honeycombOff : Fin 2 → Fin 2 → ℤ := ![![0, 1], ![0, 1]]

def honeycombD (a b : Fin 2) (v : Fin 2 → ℤ) : Fin 2 → ℤ := ![3 * v 1 + (honeycombOff 0 b - honeycombOff 0 a), 2 * v 0 - v 1 + (honeycombOff 1 b - honeycombOff 1 a)]

noncomputable def honeycombInt : IntGeo honeycombGeo where
  D := honeycombD
  w := ![1, 3]
  σ := ![√3 / 6, 1 / 2]
  s := 1 / 12
  hσ k := by fin_cases k <;> simp
  hs := by norm_num
  hw k := by fin_cases k <;> norm_num [div_pow]
  hD a b v k := by
    have h3 : (√3)⁻¹ = √3 / 3 := by
      have : √3 * √3 = (3 : ℝ) := Real.mul_self_sqrt (by norm_num)
      field_simp
      linarith
    fin_cases k <;> fin_cases a <;> fin_cases b <;> simp [Geometry.disp, honeycombGeo, honeycombD, honeycombOff, Fin.sum_univ_two] <;> (try simp only [div_eq_mul_inv, h3]) <;> ring

def honeycombQ (a b : Fin 2) (v : Fin 2 → ℤ) : ℤ := (3 * v 1 + (honeycombOff 0 b - honeycombOff 0 a)) ^ 2 + 3 * (2 * v 0 - v 1 + (honeycombOff 1 b - honeycombOff 1 a)) ^ 2

theorem honeycombInt_q (a b : Fin 2) (v : Fin 2 → ℤ) : honeycombInt.q a b v = honeycombQ a b v := by simp [IntGeo.q, honeycombInt, honeycombD, honeycombQ, Fin.sum_univ_two]

def honeycombB1 : Fin 2 → Fin 2 → List (Fin 2 → ℤ)
  | 0, 1 => [![0, 0], ![-1, 0], ![-1, -1]]
  | 1, 0 => [![0, 0], ![1, 0], ![1, 1]]
  | _, _ => []
def honeycombB2 : Fin 2 → Fin 2 → List (Fin 2 → ℤ)
  | 0, 0 => [![1, 0], ![-1, 0], ![0, 1], ![0, -1], ![1, 1], ![-1, -1]]
  | 1, 1 => [![1, 0], ![-1, 0], ![0, 1], ![0, -1], ![1, 1], ![-1, -1]]
  | _, _ => []

theorem honeycomb_box {a b : Fin 2} {v : Fin 2 → ℤ} (h : honeycombQ a b v ≤ 12) : ∀ i, -2 ≤ v i ∧ v i ≤ 2 := by
  rw [honeycombQ] at h
  have h0 := root_le (x := 3 * v 1 + (honeycombOff 0 b - honeycombOff 0 a)) 3 (M := 12) (by nlinarith [sq_nonneg (2 * v 0 - v 1 + (honeycombOff 1 b - honeycombOff 1 a))]) (by norm_num) (by norm_num)
  have h1 := root_le (x := 2 * v 0 - v 1 + (honeycombOff 1 b - honeycombOff 1 a)) 2 (M := 4) (by nlinarith [sq_nonneg (3 * v 1 + (honeycombOff 0 b - honeycombOff 0 a))]) (by norm_num) (by norm_num)
  have o0 : ∀ c, 0 ≤ honeycombOff 0 c ∧ honeycombOff 0 c ≤ 1 := by decide
  have o0a := o0 a
  have o0b := o0 b
  have o1 : ∀ c, 0 ≤ honeycombOff 1 c ∧ honeycombOff 1 c ≤ 1 := by decide
  have o1a := o1 a
  have o1b := o1 b
  intro i
  fin_cases i <;> simp only [Fin.zero_eta, Fin.mk_one] <;> omega

theorem honeycomb_key {a b : Fin 2} {v : Fin 2 → ℤ} (h : honeycombQ a b v ≤ 12) :
    (honeycombQ a b v < 12 → honeycombQ a b v ≤ 0 ∨ honeycombQ a b v = 4) ∧
    (honeycombQ a b v = 4 → v ∈ honeycombB1 a b) ∧ (honeycombQ a b v = 12 → v ∈ honeycombB2 a b) :=
  box2 (p := fun a b v => (honeycombQ a b v < 12 → honeycombQ a b v ≤ 0 ∨ honeycombQ a b v = 4) ∧
    (honeycombQ a b v = 4 → v ∈ honeycombB1 a b) ∧ (honeycombQ a b v = 12 → v ∈ honeycombB2 a b)) 2 (by decide +kernel) a b v (honeycomb_box h)

theorem honeycomb_mem1 : ∀ a b, ∀ v ∈ honeycombB1 a b, honeycombQ a b v = 4 := by decide +kernel
theorem honeycomb_mem2 : ∀ a b, ∀ v ∈ honeycombB2 a b, honeycombQ a b v = 12 := by decide +kernel

theorem honeycomb_shells :
    (∀ a b v, honeycombGeo.neighbour 1 a b v ↔ v ∈ honeycombB1 a b) ∧ (∀ a b v, honeycombGeo.neighbour 2 a b v ↔ v ∈ honeycombB2 a b) := by
  obtain ⟨e1, e2⟩ := honeycombInt.two (x := 4) (y := 12) (by norm_num) ⟨0, 1, ![0, 0], by rw [honeycombInt_q]; decide +kernel⟩ (by norm_num) ⟨0, 0, ![1, 0], by rw [honeycombInt_q]; decide +kernel⟩
    (fun a b v h => by rw [honeycombInt_q] at h ⊢; exact (honeycomb_key h.le).1 h)
  have f1 : ∀ a b v, honeycombGeo.neighbour 1 a b v ↔ v ∈ honeycombB1 a b := fun a b v => by
    rw [e1, honeycombInt_q]; exact ⟨fun h => (honeycomb_key (by omega)).2.1 h, honeycomb_mem1 a b v⟩
  refine ⟨f1, fun a b v => ?_⟩
  · rw [e2, honeycombInt_q]; exact ⟨fun h => (honeycomb_key (by omega)).2.2 h, honeycomb_mem2 a b v⟩

/-! kagome -/

def kagomeOff : Fin 2 → Fin 3 → ℤ := ![![2, 1, 3], ![0, 1, 1]]

def kagomeD (a b : Fin 3) (v : Fin 2 → ℤ) : Fin 2 → ℤ := ![4 * v 0 + 2 * v 1 + (kagomeOff 0 b - kagomeOff 0 a), 2 * v 1 + (kagomeOff 1 b - kagomeOff 1 a)]

noncomputable def kagomeInt : IntGeo kagomeGeo where
  D := kagomeD
  w := ![1, 3]
  σ := ![1 / 4, √3 / 4]
  s := 1 / 16
  hσ k := by fin_cases k <;> simp
  hs := by norm_num
  hw k := by fin_cases k <;> norm_num [div_pow]
  hD a b v k := by fin_cases k <;> fin_cases a <;> fin_cases b <;> simp [Geometry.disp, kagomeGeo, kagomeD, kagomeOff, Fin.sum_univ_two] <;> ring

def kagomeQ (a b : Fin 3) (v : Fin 2 → ℤ) : ℤ := (4 * v 0 + 2 * v 1 + (kagomeOff 0 b - kagomeOff 0 a)) ^ 2 + 3 * (2 * v 1 + (kagomeOff 1 b - kagomeOff 1 a)) ^ 2

theorem kagomeInt_q (a b : Fin 3) (v : Fin 2 → ℤ) : kagomeInt.q a b v = kagomeQ a b v := by simp [IntGeo.q, kagomeInt, kagomeD, kagomeQ, Fin.sum_univ_two]

def kagomeB1 : Fin 3 → Fin 3 → List (Fin 2 → ℤ)
  | 0, 1 => [![0, 0], ![1, -1]]
  | 0, 2 => [![0, 0], ![0, -1]]
  | 1, 0 => [![0, 0], ![-1, 1]]
  | 1, 2 => [![0, 0], ![-1, 0]]
  | 2, 0 => [![0, 0], ![0, 1]]
  | 2, 1 => [![0, 0], ![1, 0]]
  | _, _ => []
def kagomeB2 : Fin 3 → Fin 3 → List (Fin 2 → ℤ)
  | 0, 1 => [![1, 0], ![0, -1]]
  | 0, 2 => [![1, -1], ![-1, 0]]
  | 1, 0 => [![0, 1], ![-1, 0]]
  | 1, 2 => [![-1, 1], ![0, -1]]
  | 2, 0 => [![1, 0], ![-1, 1]]
  | 2, 1 => [![0, 1], ![1, -1]]
  | _, _ => []
def kagomeB3 : Fin 3 → Fin 3 → List (Fin 2 → ℤ)
  | 0, 0 => [![1, 0], ![-1, 0]]
  | 1, 1 => [![0, 1], ![0, -1]]
  | 2, 2 => [![-1, 1], ![1, -1]]
  | _, _ => []

theorem kagome_box {a b : Fin 3} {v : Fin 2 → ℤ} (h : kagomeQ a b v ≤ 16) : ∀ i, -2 ≤ v i ∧ v i ≤ 2 := by
  rw [kagomeQ] at h
  have h0 := root_le (x := 4 * v 0 + 2 * v 1 + (kagomeOff 0 b - kagomeOff 0 a)) 4 (M := 16) (by nlinarith [sq_nonneg (2 * v 1 + (kagomeOff 1 b - kagomeOff 1 a))]) (by norm_num) (by norm_num)
  have h1 := root_le (x := 2 * v 1 + (kagomeOff 1 b - kagomeOff 1 a)) 2 (M := 5) (by nlinarith [sq_nonneg (4 * v 0 + 2 * v 1 + (kagomeOff 0 b - kagomeOff 0 a))]) (by norm_num) (by norm_num)
  have o0 : ∀ c, 1 ≤ kagomeOff 0 c ∧ kagomeOff 0 c ≤ 3 := by decide
  have o0a := o0 a
  have o0b := o0 b
  have o1 : ∀ c, 0 ≤ kagomeOff 1 c ∧ kagomeOff 1 c ≤ 1 := by decide
  have o1a := o1 a
  have o1b := o1 b
  intro i
  fin_cases i <;> simp only [Fin.zero_eta, Fin.mk_one] <;> omega

/-- `Geometry.straight` in integer units. -/
def kagomeSt (a b : Fin 3) (v : Fin 2 → ℤ) : Prop := ∃ c, ∃ u ∈ kagomeB1 a c, ∀ k, kagomeD a b v k = 2 * kagomeD a c u k

instance (a b : Fin 3) (v : Fin 2 → ℤ) : Decidable (kagomeSt a b v) := by unfold kagomeSt; infer_instance

theorem kagome_key {a b : Fin 3} {v : Fin 2 → ℤ} (h : kagomeQ a b v ≤ 16) :
    (kagomeQ a b v < 16 → kagomeQ a b v ≤ 0 ∨ kagomeQ a b v = 4 ∨ kagomeQ a b v = 12) ∧
    (kagomeQ a b v = 4 → v ∈ kagomeB1 a b) ∧ (kagomeQ a b v = 12 → v ∈ kagomeB2 a b) ∧ (kagomeQ a b v = 16 → ¬ kagomeSt a b v → v ∈ kagomeB3 a b) :=
  box2 (p := fun a b v => (kagomeQ a b v < 16 → kagomeQ a b v ≤ 0 ∨ kagomeQ a b v = 4 ∨ kagomeQ a b v = 12) ∧
    (kagomeQ a b v = 4 → v ∈ kagomeB1 a b) ∧ (kagomeQ a b v = 12 → v ∈ kagomeB2 a b) ∧ (kagomeQ a b v = 16 → ¬ kagomeSt a b v → v ∈ kagomeB3 a b)) 2 (by decide +kernel) a b v (kagome_box h)

theorem kagome_mem1 : ∀ a b, ∀ v ∈ kagomeB1 a b, kagomeQ a b v = 4 := by decide +kernel
theorem kagome_mem2 : ∀ a b, ∀ v ∈ kagomeB2 a b, kagomeQ a b v = 12 := by decide +kernel
theorem kagome_mem3 : ∀ a b, ∀ v ∈ kagomeB3 a b, kagomeQ a b v = 16 ∧ ¬ kagomeSt a b v := by decide +kernel
theorem kagome_third : ∃ a b v, kagomeQ a b v = 16 := ⟨0, 0, ![1, 0], by decide +kernel⟩

theorem kagome_shells :
    (∀ a b v, kagomeGeo.neighbour 1 a b v ↔ v ∈ kagomeB1 a b) ∧ (∀ a b v, kagomeGeo.neighbour 2 a b v ↔ v ∈ kagomeB2 a b) ∧ (∀ a b v, (kagomeGeo.neighbour 3 a b v ∧ ¬ kagomeGeo.straight a b v) ↔ v ∈ kagomeB3 a b) := by
  obtain ⟨e1, e2, e3⟩ := kagomeInt.three (x := 4) (y := 12) (z := 16) (by norm_num) ⟨0, 1, ![0, 0], by rw [kagomeInt_q]; decide +kernel⟩ (by norm_num) ⟨0, 1, ![1, 0], by rw [kagomeInt_q]; decide +kernel⟩ (by norm_num)
    (by simp only [kagomeInt_q]; exact kagome_third) (fun a b v h => by rw [kagomeInt_q] at h ⊢; exact (kagome_key h.le).1 h)
  have f1 : ∀ a b v, kagomeGeo.neighbour 1 a b v ↔ v ∈ kagomeB1 a b := fun a b v => by
    rw [e1, kagomeInt_q]; exact ⟨fun h => (kagome_key (by omega)).2.1 h, kagome_mem1 a b v⟩
  refine ⟨f1, fun a b v => ?_, fun a b v => ?_⟩
  · rw [e2, kagomeInt_q]; exact ⟨fun h => (kagome_key (by omega)).2.2.1 h, kagome_mem2 a b v⟩
  · have st : kagomeGeo.straight a b v ↔ kagomeSt a b v := by
      constructor
      · rintro ⟨c, u, h, hk⟩
        refine ⟨c, u, (f1 a c u).1 h, fun k => ?_⟩
        have := hk k
        rw [kagomeInt.hD, kagomeInt.hD] at this
        have h2 : (kagomeInt.D a b v k : ℝ) = 2 * kagomeInt.D a c u k := mul_left_cancel₀ (kagomeInt.hσ k).ne' (by rw [this]; ring)
        exact_mod_cast h2
      · rintro ⟨c, u, h, hk⟩
        refine ⟨c, u, (f1 a c u).2 h, fun k => ?_⟩
        rw [kagomeInt.hD, kagomeInt.hD]
        have h2 : (kagomeInt.D a b v k : ℝ) = 2 * kagomeInt.D a c u k := by exact_mod_cast hk k
        rw [h2]; ring
    rw [e3, kagomeInt_q, st]
    exact ⟨fun h => (kagome_key (by omega)).2.2.2 h.1 h.2, kagome_mem3 a b v⟩

/-! cubic -/

def cubicD (_ _ : Fin 1) (v : Fin 3 → ℤ) : Fin 3 → ℤ := ![v 0, v 1, v 2]

def cubicInt : IntGeo cubicGeo where
  D := cubicD
  w := ![1, 1, 1]
  σ := ![1, 1, 1]
  s := 1
  hσ k := by fin_cases k <;> simp
  hs := by norm_num
  hw k := by fin_cases k <;> norm_num [div_pow]
  hD a b v k := by fin_cases k <;> fin_cases a <;> fin_cases b <;> simp [Geometry.disp, cubicGeo, cubicD, Fin.sum_univ_three] <;> ring

def cubicQ (_ _ : Fin 1) (v : Fin 3 → ℤ) : ℤ := (v 0) ^ 2 + (v 1) ^ 2 + (v 2) ^ 2

theorem cubicInt_q (a b : Fin 1) (v : Fin 3 → ℤ) : cubicInt.q a b v = cubicQ a b v := by simp [IntGeo.q, cubicInt, cubicD, cubicQ, Fin.sum_univ_three]

def cubicB1 (_ _ : Fin 1) : List (Fin 3 → ℤ) := [![1, 0, 0], ![0, 1, 0], ![0, 0, 1], ![-1, 0, 0], ![0, -1, 0], ![0, 0, -1]]
def cubicB2 (_ _ : Fin 1) : List (Fin 3 → ℤ) := [![-1, -1, 0], ![-1, 0, -1], ![-1, 0, 1], ![-1, 1, 0], ![0, -1, -1], ![0, -1, 1], ![0, 1, -1], ![0, 1, 1], ![1, -1, 0], ![1, 0, -1], ![1, 0, 1], ![1, 1, 0]]

theorem cubic_box {a b : Fin 1} {v : Fin 3 → ℤ} (h : cubicQ a b v ≤ 2) : ∀ i, -1 ≤ v i ∧ v i ≤ 1 := by
  rw [cubicQ] at h
  have h0 := root_le (x := v 0) 1 (M := 2) (by nlinarith [sq_nonneg (v 1), sq_nonneg (v 2)]) (by norm_num) (by norm_num)
  have h1 := root_le (x := v 1) 1 (M := 2) (by nlinarith [sq_nonneg (v 0), sq_nonneg (v 2)]) (by norm_num) (by norm_num)
  have h2 := root_le (x := v 2) 1 (M := 2) (by nlinarith [sq_nonneg (v 0), sq_nonneg (v 1)]) (by norm_num) (by norm_num)
  intro i
  fin_cases i <;> simp only [Fin.zero_eta, Fin.mk_one, Fin.reduceFinMk] <;> omega

theorem cubic_key {a b : Fin 1} {v : Fin 3 → ℤ} (h : cubicQ a b v ≤ 2) :
    (cubicQ a b v < 2 → cubicQ a b v ≤ 0 ∨ cubicQ a b v = 1) ∧
    (cubicQ a b v = 1 → v ∈ cubicB1 a b) ∧ (cubicQ a b v = 2 → v ∈ cubicB2 a b) :=
  box3 (p := fun a b v => (cubicQ a b v < 2 → cubicQ a b v ≤ 0 ∨ cubicQ a b v = 1) ∧
    (cubicQ a b v = 1 → v ∈ cubicB1 a b) ∧ (cubicQ a b v = 2 → v ∈ cubicB2 a b)) 1 (by decide +kernel) a b v (cubic_box h)

theorem cubic_mem1 : ∀ a b, ∀ v ∈ cubicB1 a b, cubicQ a b v = 1 := by decide +kernel
theorem cubic_mem2 : ∀ a b, ∀ v ∈ cubicB2 a b, cubicQ a b v = 2 := by decide +kernel

theorem cubic_shells :
    (∀ a b v, cubicGeo.neighbour 1 a b v ↔ v ∈ cubicB1 a b) ∧ (∀ a b v, cubicGeo.neighbour 2 a b v ↔ v ∈ cubicB2 a b) := by
  obtain ⟨e1, e2⟩ := cubicInt.two (x := 1) (y := 2) (by norm_num) ⟨0, 0, ![1, 0, 0], by rw [cubicInt_q]; decide +kernel⟩ (by norm_num) ⟨0, 0, ![-1, -1, 0], by rw [cubicInt_q]; decide +kernel⟩
    (fun a b v h => by rw [cubicInt_q] at h ⊢; exact (cubic_key h.le).1 h)
  have f1 : ∀ a b v, cubicGeo.neighbour 1 a b v ↔ v ∈ cubicB1 a b := fun a b v => by
    rw [e1, cubicInt_q]; exact ⟨fun h => (cubic_key (by omega)).2.1 h, cubic_mem1 a b v⟩
  refine ⟨f1, fun a b v => ?_⟩
  · rw [e2, cubicInt_q]; exact ⟨fun h => (cubic_key (by omega)).2.2 h, cubic_mem2 a b v⟩

/-! checkerboard3 -/

def checkerboard3Off : Fin 3 → Fin 2 → ℤ := ![![0, 1], ![0, 0], ![0, 0]]

def checkerboard3D (a b : Fin 2) (v : Fin 3 → ℤ) : Fin 3 → ℤ := ![v 0 + v 1 + v 2 + (checkerboard3Off 0 b - checkerboard3Off 0 a), v 0 - v 1, v 2]

def checkerboard3Int : IntGeo checkerboard3Geo where
  D := checkerboard3D
  w := ![1, 1, 1]
  σ := ![1, 1, 1]
  s := 1
  hσ k := by fin_cases k <;> simp
  hs := by norm_num
  hw k := by fin_cases k <;> norm_num [div_pow]
  hD a b v k := by fin_cases k <;> fin_cases a <;> fin_cases b <;> simp [Geometry.disp, checkerboard3Geo, checkerboard3D, checkerboard3Off, Fin.sum_univ_three] <;> ring

def checkerboard3Q (a b : Fin 2) (v : Fin 3 → ℤ) : ℤ := (v 0 + v 1 + v 2 + (checkerboard3Off 0 b - checkerboard3Off 0 a)) ^ 2 + (v 0 - v 1) ^ 2 + (v 2) ^ 2

theorem checkerboard3Int_q (a b : Fin 2) (v : Fin 3 → ℤ) : checkerboard3Int.q a b v = checkerboard3Q a b v := by simp [IntGeo.q, checkerboard3Int, checkerboard3D, checkerboard3Q, Fin.sum_univ_three]

def checkerboard3B1 : Fin 2 → Fin 2 → List (Fin 3 → ℤ)
  | 0, 1 => [![0, 0, 0], ![0, -1, 0], ![-1, 0, 0], ![-1, -1, 0], ![-1, -1, 1], ![0, 0, -1]]
  | 1, 0 => [![0, 0, 0], ![0, 1, 0], ![1, 0, 0], ![1, 1, 0], ![0, 0, 1], ![1, 1, -1]]
  | _, _ => []
def checkerboard3B2 : Fin 2 → Fin 2 → List (Fin 3 → ℤ)
  | 0, 0 => [![0, 1, 0], ![1, 0, 0], ![0, -1, 0], ![-1, 0, 0], ![-1, -1, 1], ![0, 0, -1], ![1, 1, -1], ![0, 0, 1], ![0, -1, 1], ![0, 1, -1], ![1, 0, -1], ![-1, 0, 1]]
  | 1, 1 => [![0, 1, 0], ![1, 0, 0], ![0, -1, 0], ![-1, 0, 0], ![-1, -1, 1], ![1, 1, -1], ![0, 0, -1], ![0, 0, 1], ![1, 0, -1], ![0, 1, -1], ![-1, 0, 1], ![0, -1, 1]]
  | _, _ => []

theorem checkerboard3_box {a b : Fin 2} {v : Fin 3 → ℤ} (h : checkerboard3Q a b v ≤ 2) : ∀ i, -2 ≤ v i ∧ v i ≤ 2 := by
  rw [checkerboard3Q] at h
  have h0 := root_le (x := v 0 + v 1 + v 2 + (checkerboard3Off 0 b - checkerboard3Off 0 a)) 1 (M := 2) (by nlinarith [sq_nonneg (v 0 - v 1), sq_nonneg (v 2)]) (by norm_num) (by norm_num)
  have h1 := root_le (x := v 0 - v 1) 1 (M := 2) (by nlinarith [sq_nonneg (v 0 + v 1 + v 2 + (checkerboard3Off 0 b - checkerboard3Off 0 a)), sq_nonneg (v 2)]) (by norm_num) (by norm_num)
  have h2 := root_le (x := v 2) 1 (M := 2) (by nlinarith [sq_nonneg (v 0 + v 1 + v 2 + (checkerboard3Off 0 b - checkerboard3Off 0 a)), sq_nonneg (v 0 - v 1)]) (by norm_num) (by norm_num)
  have o0 : ∀ c, 0 ≤ checkerboard3Off 0 c ∧ checkerboard3Off 0 c ≤ 1 := by decide
  have o0a := o0 a
  have o0b := o0 b
  intro i
  fin_cases i <;> simp only [Fin.zero_eta, Fin.mk_one, Fin.reduceFinMk] <;> omega

theorem checkerboard3_key {a b : Fin 2} {v : Fin 3 → ℤ} (h : checkerboard3Q a b v ≤ 2) :
    (checkerboard3Q a b v < 2 → checkerboard3Q a b v ≤ 0 ∨ checkerboard3Q a b v = 1) ∧
    (checkerboard3Q a b v = 1 → v ∈ checkerboard3B1 a b) ∧ (checkerboard3Q a b v = 2 → v ∈ checkerboard3B2 a b) :=
  box3 (p := fun a b v => (checkerboard3Q a b v < 2 → checkerboard3Q a b v ≤ 0 ∨ checkerboard3Q a b v = 1) ∧
    (checkerboard3Q a b v = 1 → v ∈ checkerboard3B1 a b) ∧ (checkerboard3Q a b v = 2 → v ∈ checkerboard3B2 a b)) 2 (by decide +kernel) a b v (checkerboard3_box h)

theorem checkerboard3_mem1 : ∀ a b, ∀ v ∈ checkerboard3B1 a b, checkerboard3Q a b v = 1 := by decide +kernel
theorem checkerboard3_mem2 : ∀ a b, ∀ v ∈ checkerboard3B2 a b, checkerboard3Q a b v = 2 := by decide +kernel

theorem checkerboard3_shells :
    (∀ a b v, checkerboard3Geo.neighbour 1 a b v ↔ v ∈ checkerboard3B1 a b) ∧ (∀ a b v, checkerboard3Geo.neighbour 2 a b v ↔ v ∈ checkerboard3B2 a b) := by
  obtain ⟨e1, e2⟩ := checkerboard3Int.two (x := 1) (y := 2) (by norm_num) ⟨0, 1, ![0, 0, 0], by rw [checkerboard3Int_q]; decide +kernel⟩ (by norm_num) ⟨0, 0, ![0, 1, 0], by rw [checkerboard3Int_q]; decide +kernel⟩
    (fun a b v h => by rw [checkerboard3Int_q] at h ⊢; exact (checkerboard3_key h.le).1 h)
  have f1 : ∀ a b v, checkerboard3Geo.neighbour 1 a b v ↔ v ∈ checkerboard3B1 a b := fun a b v => by
    rw [e1, checkerboard3Int_q]; exact ⟨fun h => (checkerboard3_key (by omega)).2.1 h, checkerboard3_mem1 a b v⟩
  refine ⟨f1, fun a b v => ?_⟩
  · rw [e2, checkerboard3Int_q]; exact ⟨fun h => (checkerboard3_key (by omega)).2.2 h, checkerboard3_mem2 a b v⟩

/-! pyrochlore -/

def pyrochloreOff : Fin 3 → Fin 4 → ℤ := ![![0, 0, 1, 1], ![0, 1, 0, 1], ![0, 1, 1, 0]]

def pyrochloreD (a b : Fin 4) (v : Fin 3 → ℤ) : Fin 3 → ℤ := ![2 * v 1 + 2 * v 2 + (pyrochloreOff 0 b - pyrochloreOff 0 a), 2 * v 0 + 2 * v 2 + (pyrochloreOff 1 b - pyrochloreOff 1 a), 2 * v 0 + 2 * v 1 + (pyrochloreOff 2 b - pyrochloreOff 2 a)]

noncomputable def pyrochloreInt : IntGeo pyrochloreGeo where
  D := pyrochloreD
  w := ![1, 1, 1]
  σ := ![1 / 4, 1 / 4, 1 / 4]
  s := 1 / 16
  hσ k := by fin_cases k <;> simp
  hs := by norm_num
  hw k := by fin_cases k <;> norm_num [div_pow]
  hD a b v k := by fin_cases k <;> fin_cases a <;> fin_cases b <;> simp [Geometry.disp, pyrochloreGeo, pyrochloreD, pyrochloreOff, Fin.sum_univ_three] <;> ring

def pyrochloreQ (a b : Fin 4) (v : Fin 3 → ℤ) : ℤ := (2 * v 1 + 2 * v 2 + (pyrochloreOff 0 b - pyrochloreOff 0 a)) ^ 2 + (2 * v 0 + 2 * v 2 + (pyrochloreOff 1 b - pyrochloreOff 1 a)) ^ 2 + (2 * v 0 + 2 * v 1 + (pyrochloreOff 2 b - pyrochloreOff 2 a)) ^ 2

theorem pyrochloreInt_q (a b : Fin 4) (v : Fin 3 → ℤ) : pyrochloreInt.q a b v = pyrochloreQ a b v := by simp [IntGeo.q, pyrochloreInt, pyrochloreD, pyrochloreQ, Fin.sum_univ_three]

def pyrochloreB1 : Fin 4 → Fin 4 → List (Fin 3 → ℤ)
  | 0, 1 => [![0, 0, 0], ![-1, 0, 0]]
  | 0, 2 => [![0, 0, 0], ![0, -1, 0]]
  | 0, 3 => [![0, 0, 0], ![0, 0, -1]]
  | 1, 0 => [![0, 0, 0], ![1, 0, 0]]
  | 1, 2 => [![0, 0, 0], ![1, -1, 0]]
  | 1, 3 => [![0, 0, 0], ![1, 0, -1]]
  | 2, 0 => [![0, 0, 0], ![0, 1, 0]]
  | 2, 1 => [![0, 0, 0], ![-1, 1, 0]]
  | 2, 3 => [![0, 0, 0], ![0, 1, -1]]
  | 3, 0 => [![0, 0, 0], ![0, 0, 1]]
  | 3, 1 => [![0, 0, 0], ![-1, 0, 1]]
  | 3, 2 => [![0, 0, 0], ![0, -1, 1]]
  | _, _ => []
def pyrochloreB2 : Fin 4 → Fin 4 → List (Fin 3 → ℤ)
  | 0, 1 => [![0, -1, 0], ![0, 0, -1], ![-1, 1, 0], ![-1, 0, 1]]
  | 0, 2 => [![-1, 0, 0], ![0, 0, -1], ![1, -1, 0], ![0, -1, 1]]
  | 0, 3 => [![-1, 0, 0], ![0, -1, 0], ![1, 0, -1], ![0, 1, -1]]
  | 1, 0 => [![1, -1, 0], ![1, 0, -1], ![0, 0, 1], ![0, 1, 0]]
  | 1, 2 => [![1, 0, 0], ![1, 0, -1], ![0, -1, 0], ![0, -1, 1]]
  | 1, 3 => [![1, -1, 0], ![1, 0, 0], ![0, 0, -1], ![0, 1, -1]]
  | 2, 0 => [![-1, 1, 0], ![0, 1, -1], ![1, 0, 0], ![0, 0, 1]]
  | 2, 1 => [![0, 1, 0], ![0, 1, -1], ![-1, 0, 0], ![-1, 0, 1]]
  | 2, 3 => [![0, 1, 0], ![-1, 1, 0], ![0, 0, -1], ![1, 0, -1]]
  | 3, 0 => [![-1, 0, 1], ![0, -1, 1], ![1, 0, 0], ![0, 1, 0]]
  | 3, 1 => [![0, 0, 1], ![0, -1, 1], ![-1, 0, 0], ![-1, 1, 0]]
  | 3, 2 => [![0, 0, 1], ![-1, 0, 1], ![0, -1, 0], ![1, -1, 0]]
  | _, _ => []
def pyrochloreB3 : Fin 4 → Fin 4 → List (Fin 3 → ℤ)
  | 0, 0 => [![1, 0, 0], ![0, 1, 0], ![0, 0, 1], ![-1, 0, 0], ![0, -1, 0], ![0, 0, -1]]
  | 1, 1 => [![-1, 0, 0], ![-1, 1, 0], ![-1, 0, 1], ![1, 0, 0], ![1, -1, 0], ![1, 0, -1]]
  | 2, 2 => [![0, -1, 0], ![1, -1, 0], ![0, -1, 1], ![0, 1, 0], ![-1, 1, 0], ![0, 1, -1]]
  | 3, 3 => [![0, 0, -1], ![1, 0, -1], ![0, 1, -1], ![0, 0, 1], ![-1, 0, 1], ![0, -1, 1]]
  | _, _ => []

theorem pyrochlore_box {a b : Fin 4} {v : Fin 3 → ℤ} (h : pyrochloreQ a b v ≤ 8) : ∀ i, -1 ≤ v i ∧ v i ≤ 1 := by
  rw [pyrochloreQ] at h
  have h0 := root_le (x := 2 * v 1 + 2 * v 2 + (pyrochloreOff 0 b - pyrochloreOff 0 a)) 2 (M := 8) (by nlinarith [sq_nonneg (2 * v 0 + 2 * v 2 + (pyrochloreOff 1 b - pyrochloreOff 1 a)), sq_nonneg (2 * v 0 + 2 * v 1 + (pyrochloreOff 2 b - pyrochloreOff 2 a))]) (by norm_num) (by norm_num)
  have h1 := root_le (x := 2 * v 0 + 2 * v 2 + (pyrochloreOff 1 b - pyrochloreOff 1 a)) 2 (M := 8) (by nlinarith [sq_nonneg (2 * v 1 + 2 * v 2 + (pyrochloreOff 0 b - pyrochloreOff 0 a)), sq_nonneg (2 * v 0 + 2 * v 1 + (pyrochloreOff 2 b - pyrochloreOff 2 a))]) (by norm_num) (by norm_num)
  have h2 := root_le (x := 2 * v 0 + 2 * v 1 + (pyrochloreOff 2 b - pyrochloreOff 2 a)) 2 (M := 8) (by nlinarith [sq_nonneg (2 * v 1 + 2 * v 2 + (pyrochloreOff 0 b - pyrochloreOff 0 a)), sq_nonneg (2 * v 0 + 2 * v 2 + (pyrochloreOff 1 b - pyrochloreOff 1 a))]) (by norm_num) (by norm_num)
  have o0 : ∀ c, 0 ≤ pyrochloreOff 0 c ∧ pyrochloreOff 0 c ≤ 1 := by decide
  have o0a := o0 a
  have o0b := o0 b
  have o1 : ∀ c, 0 ≤ pyrochloreOff 1 c ∧ pyrochloreOff 1 c ≤ 1 := by decide
  have o1a := o1 a
  have o1b := o1 b
  have o2 : ∀ c, 0 ≤ pyrochloreOff 2 c ∧ pyrochloreOff 2 c ≤ 1 := by decide
  have o2a := o2 a
  have o2b := o2 b
  intro i
  fin_cases i <;> simp only [Fin.zero_eta, Fin.mk_one, Fin.reduceFinMk] <;> omega

/-- `Geometry.straight` in integer units. -/
def pyrochloreSt (a b : Fin 4) (v : Fin 3 → ℤ) : Prop := ∃ c, ∃ u ∈ pyrochloreB1 a c, ∀ k, pyrochloreD a b v k = 2 * pyrochloreD a c u k

instance (a b : Fin 4) (v : Fin 3 → ℤ) : Decidable (pyrochloreSt a b v) := by unfold pyrochloreSt; infer_instance

theorem pyrochlore_key {a b : Fin 4} {v : Fin 3 → ℤ} (h : pyrochloreQ a b v ≤ 8) :
    (pyrochloreQ a b v < 8 → pyrochloreQ a b v ≤ 0 ∨ pyrochloreQ a b v = 2 ∨ pyrochloreQ a b v = 6) ∧
    (pyrochloreQ a b v = 2 → v ∈ pyrochloreB1 a b) ∧ (pyrochloreQ a b v = 6 → v ∈ pyrochloreB2 a b) ∧ (pyrochloreQ a b v = 8 → pyrochloreSt a b v → v ∈ pyrochloreB3 a b) :=
  box3 (p := fun a b v => (pyrochloreQ a b v < 8 → pyrochloreQ a b v ≤ 0 ∨ pyrochloreQ a b v = 2 ∨ pyrochloreQ a b v = 6) ∧
    (pyrochloreQ a b v = 2 → v ∈ pyrochloreB1 a b) ∧ (pyrochloreQ a b v = 6 → v ∈ pyrochloreB2 a b) ∧ (pyrochloreQ a b v = 8 → pyrochloreSt a b v → v ∈ pyrochloreB3 a b)) 1 (by decide +kernel) a b v (pyrochlore_box h)

theorem pyrochlore_mem1 : ∀ a b, ∀ v ∈ pyrochloreB1 a b, pyrochloreQ a b v = 2 := by decide +kernel
theorem pyrochlore_mem2 : ∀ a b, ∀ v ∈ pyrochloreB2 a b, pyrochloreQ a b v = 6 := by decide +kernel
theorem pyrochlore_mem3 : ∀ a b, ∀ v ∈ pyrochloreB3 a b, pyrochloreQ a b v = 8 ∧ pyrochloreSt a b v := by decide +kernel
theorem pyrochlore_third : ∃ a b v, pyrochloreQ a b v = 8 := ⟨0, 0, ![1, 0, 0], by decide +kernel⟩

theorem pyrochlore_shells :
    (∀ a b v, pyrochloreGeo.neighbour 1 a b v ↔ v ∈ pyrochloreB1 a b) ∧ (∀ a b v, pyrochloreGeo.neighbour 2 a b v ↔ v ∈ pyrochloreB2 a b) ∧ (∀ a b v, (pyrochloreGeo.neighbour 3 a b v ∧ pyrochloreGeo.straight a b v) ↔ v ∈ pyrochloreB3 a b) := by
  obtain ⟨e1, e2, e3⟩ := pyrochloreInt.three (x := 2) (y := 6) (z := 8) (by norm_num) ⟨0, 1, ![0, 0, 0], by rw [pyrochloreInt_q]; decide +kernel⟩ (by norm_num) ⟨0, 1, ![0, -1, 0], by rw [pyrochloreInt_q]; decide +kernel⟩ (by norm_num)
    (by simp only [pyrochloreInt_q]; exact pyrochlore_third) (fun a b v h => by rw [pyrochloreInt_q] at h ⊢; exact (pyrochlore_key h.le).1 h)
  have f1 : ∀ a b v, pyrochloreGeo.neighbour 1 a b v ↔ v ∈ pyrochloreB1 a b := fun a b v => by
    rw [e1, pyrochloreInt_q]; exact ⟨fun h => (pyrochlore_key (by omega)).2.1 h, pyrochlore_mem1 a b v⟩
  refine ⟨f1, fun a b v => ?_, fun a b v => ?_⟩
  · rw [e2, pyrochloreInt_q]; exact ⟨fun h => (pyrochlore_key (by omega)).2.2.1 h, pyrochlore_mem2 a b v⟩
  · have st : pyrochloreGeo.straight a b v ↔ pyrochloreSt a b v := by
      constructor
      · rintro ⟨c, u, h, hk⟩
        refine ⟨c, u, (f1 a c u).1 h, fun k => ?_⟩
        have := hk k
        rw [pyrochloreInt.hD, pyrochloreInt.hD] at this
        have h2 : (pyrochloreInt.D a b v k : ℝ) = 2 * pyrochloreInt.D a c u k := mul_left_cancel₀ (pyrochloreInt.hσ k).ne' (by rw [this]; ring)
        exact_mod_cast h2
      · rintro ⟨c, u, h, hk⟩
        refine ⟨c, u, (f1 a c u).2 h, fun k => ?_⟩
        rw [pyrochloreInt.hD, pyrochloreInt.hD]
        have h2 : (pyrochloreInt.D a b v k : ℝ) = 2 * pyrochloreInt.D a c u k := by exact_mod_cast hk k
        rw [h2]; ring
    rw [e3, pyrochloreInt_q, st]
    exact ⟨fun h => (pyrochlore_key (by omega)).2.2.2 h.1 h.2, pyrochlore_mem3 a b v⟩

end Feyn
