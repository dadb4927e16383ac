/- C76, C77, C91: printing and parsing. Here: vectors, points, matrices, boxes, balls, segments, quaternions. -/
import Verif.Lemmas.Stream
import Verif.Props.RotNormalize

namespace WFMath
open Spec Matrix
variable {n : Nat}

/-! ### C76 -/

/-- C76: parsing the printed form of a vector gives the numbers printed, a valid vector, and consumes exactly the text
printed (after white space, whatever follows). -/
theorem C76_vector {N : NumIO} {rnd : ℝ → ℝ} (hN : PrintsBack N rnd) (junk : Char) (v : Vec (n + 1)) (pre rest : List Char)
    (hpre : ∀ c ∈ pre, white c = true) :
    Vec.read N junk (n + 1) ⟨pre ++ (v.print N ++ rest), false⟩ = .ok ⟨fun i => rnd (v.elem i), true⟩ ⟨rest, false⟩ :=
  Vec.read_print hN junk v pre rest hpre

/-- C76: the same for a point. -/
theorem C76_point {N : NumIO} {rnd : ℝ → ℝ} (hN : PrintsBack N rnd) (junk : Char) (p : Pt (n + 1)) (pre rest : List Char)
    (hpre : ∀ c ∈ pre, white c = true) :
    Pt.read N junk (n + 1) ⟨pre ++ (p.print N ++ rest), false⟩ = .ok ⟨fun i => rnd (p.elem i), true⟩ ⟨rest, false⟩ :=
  Pt.read_print hN junk p pre rest hpre

/-- C76: a vector is read exactly from the texts that start with a parenthesised list of `n + 1` numbers, whatever the
number reader accepts; the result is that list, and the rest of the text stays. -/
theorem C76_accepts (N : NumIO) (junk : Char) (t : List Char) (v : Vec (n + 1)) (s : IStream) :
    Vec.read N junk (n + 1) ⟨t, false⟩ = .ok v s ↔
      v.valid = true ∧ s.fail = false ∧ CoordText N (List.ofFn v.elem) t s.rest := by
  unfold Vec.read
  rcases readCoords_spec N junk n t with ⟨d, rest, h1, h2⟩ | ⟨h1, h2⟩
  · rw [h2]
    constructor
    · intro h
      injection h with h3 h4
      subst h3 h4
      exact ⟨rfl, rfl, h1⟩
    · rintro ⟨hv, hf, t', e1, i1⟩
      obtain ⟨t2, e2, i2⟩ := h1
      rw [e1] at e2
      obtain ⟨-, rfl⟩ := List.cons.inj e2
      obtain ⟨e3, e4⟩ := items_unique _ _ _ _ _ (by simp) i1 i2
      have e5 := List.ofFn_injective e3
      obtain ⟨e, va⟩ := v
      obtain ⟨r, f⟩ := s
      simp only at hv hf e4 e5
      subst hv hf e4 e5
      rfl
  · rw [h2]
    constructor
    · intro h; exact absurd h (by simp [Read.bind])
    · rintro ⟨-, -, h3⟩; exact absurd h3 (h1 _ _)

/-- C76: every other text raises `ParseError`; so does a stream that has failed. -/
theorem C76_rejects (N : NumIO) (junk : Char) (t : List Char) :
    ((∀ (d : Fin (n + 1) → ℝ) rest, ¬ CoordText N (List.ofFn d) t rest) → Vec.read N junk (n + 1) ⟨t, false⟩ = .parseError ∧
      Pt.read N junk (n + 1) ⟨t, false⟩ = .parseError) ∧
    (Vec.read N junk (n + 1) ⟨t, true⟩ = .parseError ∧ Pt.read N junk (n + 1) ⟨t, true⟩ = .parseError) := by
  refine ⟨fun h => ?_, ?_⟩
  · unfold Vec.read Pt.read
    rcases readCoords_spec N junk n t with ⟨d, rest, h1, -⟩ | ⟨-, h2⟩
    · exact absurd h1 (h _ _)
    · rw [h2]; exact ⟨rfl, rfl⟩
  · unfold Vec.read Pt.read
    rw [readCoords_failed N junk n _ rfl]; exact ⟨rfl, rfl⟩

/-- A number printer and reader that satisfies the assumption: the integer part in unary, ended by a `0`. -/
noncomputable def unaryIO : NumIO where
  fmt x := List.replicate ⌊x⌋₊ '1' ++ ['0']
  parse t := match (t.dropWhile white).dropWhile (· == '1') with
    | '0' :: r => some (((t.dropWhile white).takeWhile (· == '1')).length, r)
    | _ => none

theorem unaryIO_printsBack : PrintsBack unaryIO (fun x => (⌊x⌋₊ : ℝ)) := by
  intro x rest _
  have e : ∀ k (r : List Char), (List.replicate k '1' ++ '0' :: r).dropWhile white = List.replicate k '1' ++ '0' :: r := by
    intro k r; cases k <;> simp [white, List.replicate_succ]
  have e2 : ∀ k (r : List Char), (List.replicate k '1' ++ '0' :: r).dropWhile (· == '1') = '0' :: r := by
    intro k r
    induction k with
    | zero => simp
    | succ k ih => rw [List.replicate_succ, List.cons_append, List.dropWhile_cons]; simpa using ih
  have e3 : ∀ k (r : List Char), (List.replicate k '1' ++ '0' :: r).takeWhile (· == '1') = List.replicate k '1' := by
    intro k r
    induction k with
    | zero => simp
    | succ k ih => rw [List.replicate_succ, List.cons_append, List.takeWhile_cons]; simpa using ih
  unfold unaryIO
  simp only [List.append_assoc, List.cons_append, List.nil_append, e, e2, e3, List.length_replicate]

/-- Non-vacuity: with that printer the point `(2, 0, 1)` is written as `(110,0,10)` and read back. -/
example : (⟨![2, 0, 1], true⟩ : Pt 3).print unaryIO = ['(', '1', '1', '0', ',', '0', ',', '1', '0', ')'] ∧
    Pt.read unaryIO 'x' 3 ⟨(⟨![2, 0, 1], true⟩ : Pt 3).print unaryIO ++ ['!'], false⟩ = .ok ⟨![2, 0, 1], true⟩ ⟨['!'], false⟩ := by
  have hf : ∀ x : ℝ, unaryIO.fmt x = List.replicate ⌊x⌋₊ '1' ++ ['0'] := fun _ => rfl
  have e2 : ⌊(2 : ℝ)⌋₊ = 2 := by exact_mod_cast Nat.floor_natCast (R := ℝ) 2
  constructor
  · simp [Pt.print, writeCoords, writeItems, hf, List.ofFn_succ, e2, List.replicate_succ]
  · have := C76_point unaryIO_printsBack 'x' (⟨![2, 0, 1], true⟩ : Pt 3) [] ['!'] (by simp)
    rw [List.nil_append] at this
    rw [this]
    congr 2
    funext i
    fin_cases i <;> simp [e2]

/-- The conclusions of C76 distinguish texts: `(1` is not the text of a point. -/
example : Pt.read unaryIO 'x' 2 ⟨['(', '1', '0'], false⟩ = .parseError := by
  refine ((C76_rejects unaryIO 'x' _).1 ?_).2
  rintro d rest ⟨t, h1, t', h2, h3⟩
  simp [white] at h1
  subst h1
  simp [unaryIO, white] at h2
  obtain ⟨-, rfl⟩ := h2
  simp at h3

/-! ### C77: fixed number of parts -/

theorem pre_space : ∀ c ∈ [' '], white c = true := by decide

/-- C77: parsing a printed AxisBox gives the printed corners and consumes exactly the text. -/
theorem C77_box {N : NumIO} {rnd : ℝ → ℝ} (hN : PrintsBack N rnd) (junk : Char) (b : Box (n + 1)) (rest : List Char) :
    Box.read N junk (n + 1) ⟨b.print N ++ rest, false⟩ =
      .ok ⟨⟨fun i => rnd (b.low.elem i), true⟩, ⟨fun i => rnd (b.high.elem i), true⟩⟩ ⟨rest, false⟩ := by
  have e : b.print N ++ rest = ['A','x','i','s','B','o','x',':',' ','m','_','l','o','w',' '] ++ '=' :: ([' '] ++ (b.low.print N ++
      ([',',' ','m','_','h','i','g','h',' '] ++ '=' :: ([' '] ++ (b.high.print N ++ rest))))) := by
    simp [Box.print, lblBoxLow, lblBoxHigh]
  unfold Box.read
  rw [e, skipTo_label isEq '=' _ (by decide) (by decide) _ _ (by decide)]
  simp only [afterSkip]
  rw [Pt.read_print hN junk b.low [' '] _ pre_space]
  simp only [Read.bind]
  rw [skipTo_label isEq '=' _ (by decide) (by decide) _ _ (by decide)]
  simp only
  rw [Pt.read_print hN junk b.high [' '] _ pre_space]

/-- C77: the same for a Segment. -/
theorem C77_segment {N : NumIO} {rnd : ℝ → ℝ} (hN : PrintsBack N rnd) (junk : Char) (g : Seg (n + 1)) (rest : List Char) :
    Seg.read N junk (n + 1) ⟨g.print N ++ rest, false⟩ =
      .ok ⟨⟨fun i => rnd (g.p1.elem i), true⟩, ⟨fun i => rnd (g.p2.elem i), true⟩⟩ ⟨rest, false⟩ := by
  have e : g.print N ++ rest = ['S','e','g','m','e','n','t',':',' ','m','_','p','1',' '] ++ '=' :: ([' '] ++ (g.p1.print N ++
      ([',',' ','m','_','p','2',' '] ++ '=' :: ([' '] ++ (g.p2.print N ++ rest))))) := by
    simp [Seg.print, lblSegP1, lblSegP2]
  unfold Seg.read
  rw [e, skipTo_label isEq '=' _ (by decide) (by decide) _ _ (by decide)]
  simp only [afterSkip]
  rw [Pt.read_print hN junk g.p1 [' '] _ pre_space]
  simp only [Read.bind]
  rw [skipTo_label isEq '=' _ (by decide) (by decide) _ _ (by decide)]
  simp only
  rw [Pt.read_print hN junk g.p2 [' '] _ pre_space]

/-- C77: the same for a Ball. The radius is the last thing printed; as for any number, what follows must not continue it. The number
reader skips white space. -/
theorem C77_ball {N : NumIO} {rnd : ℝ → ℝ} (hN : PrintsBack N rnd) (hsp : ∀ t, N.parse (' ' :: t) = N.parse t) (junk : Char)
    (b b' : Ball (n + 1)) (rest : List Char) (hr : ∀ c, rest.head? = some c → c = ',' ∨ c = ')') :
    Ball.read N junk b' ⟨b.print N ++ rest, false⟩ =
      .ok ⟨⟨fun i => rnd (b.center.elem i), true⟩, rnd b.radius⟩ ⟨rest, false⟩ := by
  have e : b.print N ++ rest = ['B','a','l','l',':',' ','m','_','c','e','n','t','e','r',' '] ++ '=' :: ([' '] ++ (b.center.print N ++
      ([',',' ','m','_','r','a','d','i','u','s',' '] ++ '=' :: ' ' :: (N.fmt b.radius ++ rest)))) := by
    simp [Ball.print, lblBallCenter, lblBallRadius]
  unfold Ball.read
  rw [e, skipTo_label isEq '=' _ (by decide) (by decide) _ _ (by decide)]
  simp only [afterSkip]
  rw [Pt.read_print hN junk b.center [' '] _ pre_space]
  simp only [Read.bind]
  rw [skipTo_label isEq '=' _ (by decide) (by decide) _ _ (by decide)]
  simp only
  rw [getNum_ok (x := rnd b.radius) (r := rest) (by rw [hsp]; exact hN _ _ hr)]
  rfl

/-- Non-vacuity of the assumption on white space. -/
example : ∀ t, unaryIO.parse (' ' :: t) = unaryIO.parse t := by intro t; simp [unaryIO, white]

/-- A matrix is read from its printed form by handing the printed numbers to `setVals`. -/
theorem readMat_print {N : NumIO} {rnd : ℝ → ℝ} (hN : PrintsBack N rnd) (L : Gauss.Limits) (fuel : Nat) (junk : Char) (prec : ℤ)
    (m m0 : RotMat (n + 1)) (pre rest : List Char) (hpre : ∀ c ∈ pre, white c = true) :
    RotMat.read L fuel N junk prec m0 ⟨pre ++ (m.print N ++ rest), false⟩ =
      match RotMat.setVals L fuel m0 (Matrix.of fun i j => rnd (m.elem i j)) (floatMax epsilon (getEpsilon prec)) with
      | none => .outOfFuel
      | some (_, false) => .parseError
      | some (m', true) => .ok m' ⟨rest, false⟩ := by
  have hg : getChar junk ⟨pre ++ (m.print N ++ rest), false⟩ = ('(', ⟨writeRows N (List.ofFn fun i => m.elem i) ++ rest, false⟩) := by
    rw [getChar_def]
    rw [List.dropWhile_append_of_pos hpre]
    simp [RotMat.print, white]
  unfold RotMat.read
  rw [hg]
  simp only [ne_eq, not_true_eq_false, if_false]
  have hl : (List.ofFn fun i => m.elem i).length = n + 1 := by simp
  have := readRows_write hN junk rest (List.ofFn fun i => m.elem i) '(' (by simp)
  rw [hl] at this
  rw [this]
  simp only [Read.bind]
  have e : (Matrix.of fun i j => ((List.ofFn fun i => m.elem i).map fun (r : Fin (n + 1) → ℝ) i => rnd (r i)).getD i.val 0 j :
      Matrix (Fin (n + 1)) (Fin (n + 1)) ℝ) = Matrix.of fun i j => rnd (m.elem i j) := by
    ext i j
    simp only [Matrix.of_apply, List.getD, List.getElem?_map, List.getElem?_ofFn, i.isLt, dite_true]
    rfl
  rw [e]
  generalize RotMat.setVals L fuel m0 (Matrix.of fun i j => rnd (m.elem i j)) (floatMax epsilon (getEpsilon prec)) = o
  match o with
  | none => rfl
  | some (_, false) => rfl
  | some (_, true) => rfl

theorem getEpsilon_le {prec : ℤ} (h : 2 ≤ prec) : 0 ≤ getEpsilon prec ∧ getEpsilon prec ≤ 1 / 10 := by
  unfold getEpsilon
  obtain ⟨k, hk⟩ : ∃ k, (prec - 1).toNat = k + 1 := ⟨(prec - 1).toNat - 1, by omega⟩
  rw [hk, pow_succ]
  have h1 : (1 / 10 : ℝ) ^ k ≤ 1 := pow_le_one₀ (by norm_num) (by norm_num)
  have h2 : (0 : ℝ) ≤ (1 / 10 : ℝ) ^ k := by positivity
  constructor <;> nlinarith

theorem tolerance_lt {prec : ℤ} (h : 2 ≤ prec) : 0 < floatMax epsilon (getEpsilon prec) ∧ |floatMax epsilon (getEpsilon prec)| < 0.9 := by
  have h1 := getEpsilon_le h
  have h2 := epsilon_pos
  have h3 := epsilon_lt
  norm_num at h3
  have : floatMax epsilon (getEpsilon prec) = epsilon ∨ floatMax epsilon (getEpsilon prec) = getEpsilon prec := by
    unfold floatMax; split_ifs <;> simp
  have h4 : 0 < floatMax epsilon (getEpsilon prec) := by
    unfold floatMax; split_ifs <;> linarith
  refine ⟨h4, ?_⟩
  rw [abs_of_pos h4]
  rcases this with h | h <;> rw [h] <;> norm_num <;> linarith

/-- C77: when the printed numbers still form an orthogonal matrix, parsing gives exactly that matrix, valid. -/
theorem C77_matrix {N : NumIO} {rnd : ℝ → ℝ} (hN : PrintsBack N rnd) (L : Gauss.Limits) (fuel : Nat) (junk : Char) (prec : ℤ)
    (hp : 2 ≤ prec) (m m0 : RotMat (n + 1)) (pre rest : List Char) (hpre : ∀ c ∈ pre, white c = true)
    (ho : (Matrix.of fun i j => rnd (m.elem i j)) * (Matrix.of fun i j => rnd (m.elem i j))ᵀ = 1) :
    ∃ m', RotMat.read L (fuel + 1) N junk prec m0 ⟨pre ++ (m.print N ++ rest), false⟩ = .ok m' ⟨rest, false⟩ ∧
      (∀ i j, m'.elem i j = rnd (m.elem i j)) ∧ m'.valid = true := by
  obtain ⟨m', h1, h2, h3⟩ := C46_orthogonal L fuel m0 _ (floatMax epsilon (getEpsilon prec)) (tolerance_lt hp).2 ho
  refine ⟨m', ?_, fun i j => by rw [h2]; rfl, h3⟩
  rw [readMat_print hN L _ junk prec m m0 pre rest hpre, h1]

/-- C77: in general the printed numbers are accepted only if they are orthogonal to within the tolerance of the stream, and then the
matrix read is orthogonal to within `ε` and valid; the loop that improves it always stops. -/
theorem C77_matrix_general {N : NumIO} {rnd : ℝ → ℝ} (hN : PrintsBack N rnd) (L : Gauss.Limits) (junk : Char) (prec : ℤ)
    (m m0 : RotMat (n + 1)) (pre rest : List Char) (hpre : ∀ c ∈ pre, white c = true) :
    ∃ fuel, RotMat.read L fuel N junk prec m0 ⟨pre ++ (m.print N ++ rest), false⟩ = .parseError ∨
      ∃ m', RotMat.read L fuel N junk prec m0 ⟨pre ++ (m.print N ++ rest), false⟩ = .ok m' ⟨rest, false⟩ ∧ m'.valid = true ∧
        (∀ i j, |((Matrix.of fun i j => rnd (m.elem i j)) * (Matrix.of fun i j => rnd (m.elem i j))ᵀ - 1) i j| ≤
          |floatMax epsilon (getEpsilon prec)|) ∧
        ∀ i j, |(m'.elem * m'.elemᵀ - 1) i j| ≤ epsilon := by
  obtain ⟨fuel, hf⟩ := C46_terminates L m0 (Matrix.of fun i j => rnd (m.elem i j)) (floatMax epsilon (getEpsilon prec))
  obtain ⟨⟨m', ok⟩, h⟩ := Option.isSome_iff_exists.1 hf
  refine ⟨fuel, ?_⟩
  rw [readMat_print hN L fuel junk prec m m0 pre rest hpre, h]
  cases ok with
  | false => exact Or.inl rfl
  | true =>
    obtain ⟨-, h2, h3, h4⟩ := (C46_accepts L fuel m0 m' _ _ true h).1 rfl
    exact Or.inr ⟨m', rfl, h4, h2, h3⟩

/-- C77 fails for matrices on a stream of precision 1 or less: the printed form of every matrix is refused. -/
theorem C77_low_precision_false {N : NumIO} {rnd : ℝ → ℝ} (hN : PrintsBack N rnd) (L : Gauss.Limits) (fuel : Nat) (junk : Char) (prec : ℤ)
    (hp : prec ≤ 1) (m m0 : RotMat (n + 1)) (rest : List Char) :
    RotMat.read L fuel N junk prec m0 ⟨m.print N ++ rest, false⟩ = .parseError := by
  have := readMat_print hN L fuel junk prec m m0 [] rest (by simp)
  rw [List.nil_append] at this
  rw [this]
  have he : getEpsilon prec = 1 := by
    unfold getEpsilon; rw [show (prec - 1).toNat = 0 by omega, pow_zero]
  have he2 := epsilon_lt
  norm_num at he2
  have h1 : floatMax epsilon (getEpsilon prec) = 1 := by
    rw [he]; unfold floatMax; rw [if_neg (by linarith)]
  rw [(C46_refuses L fuel m0 _ _).1 (by rw [h1]; norm_num)]

/-- C77: a RotBox comes back with the printed corner, size and orientation when the printed orientation is orthogonal. -/
theorem C77_rotbox {N : NumIO} {rnd : ℝ → ℝ} (hN : PrintsBack N rnd) (L : Gauss.Limits) (fuel : Nat) (junk : Char) (prec : ℤ)
    (hp : 2 ≤ prec) (r r0 : RBox (n + 1)) (rest : List Char)
    (ho : (Matrix.of fun i j => rnd (r.orient.elem i j)) * (Matrix.of fun i j => rnd (r.orient.elem i j))ᵀ = 1) :
    ∃ m', RBox.read L (fuel + 1) N junk prec r0 ⟨r.print N ++ rest, false⟩ =
        .ok ⟨⟨fun i => rnd (r.corner.elem i), true⟩, ⟨fun i => rnd (r.size.elem i), true⟩, m'⟩ ⟨rest, false⟩ ∧
      (∀ i j, m'.elem i j = rnd (r.orient.elem i j)) ∧ m'.valid = true := by
  have e : r.print N ++ rest = ['R','o','t','B','o','x',':',' ','m','_','c','o','r','n','e','r','0',' '] ++ '=' :: ([' '] ++ (r.corner.print N ++
      ([',',' ','m','_','s','i','z','e',' '] ++ '=' :: ([' '] ++ (r.size.print N ++
      ([',',' ','m','_','o','r','i','e','n','t',' '] ++ '=' :: ([' '] ++ (r.orient.print N ++ rest)))))))) := by
    simp [RBox.print, lblRBoxCorner, lblRBoxSize, lblRBoxOrient]
  obtain ⟨m', h1, h2, h3⟩ := C77_matrix hN L fuel junk prec hp r.orient r0.orient [' '] rest pre_space ho
  refine ⟨m', ?_, h2, h3⟩
  unfold RBox.read
  rw [e, skipTo_label isEq '=' _ (by decide) (by decide) _ _ (by decide)]
  simp only [afterSkip]
  rw [Pt.read_print hN junk r.corner [' '] _ pre_space]
  simp only [Read.bind]
  rw [skipTo_label isEq '=' _ (by decide) (by decide) _ _ (by decide)]
  simp only
  rw [Vec.read_print hN junk r.size [' '] _ pre_space]
  simp only [Read.bind]
  rw [skipTo_label isEq '=' _ (by decide) (by decide) _ _ (by decide)]
  simp only
  rw [h1]

/-- Non-vacuity: the identity matrix (0 and 1 are printed exactly). -/
example : (Matrix.of fun i j => ((⌊(RotMat.identity : RotMat 3).elem i j⌋₊ : ℕ) : ℝ) : Matrix (Fin 3) (Fin 3) ℝ) *
    (Matrix.of fun i j => ((⌊(RotMat.identity : RotMat 3).elem i j⌋₊ : ℕ) : ℝ))ᵀ = 1 := by
  have e : (Matrix.of fun i j => ((⌊(RotMat.identity : RotMat 3).elem i j⌋₊ : ℕ) : ℝ) : Matrix (Fin 3) (Fin 3) ℝ) = 1 := by
    ext i j
    by_cases h : i = j
    · subst h; simp [RotMat.identity]
    · simp [RotMat.identity, h, Matrix.one_apply]
  rw [e]; simp

/-- C77: a Quaternion comes back as the printed one divided by its magnitude; in particular as printed when that is 1. -/
theorem C77_quaternion {N : NumIO} {rnd : ℝ → ℝ} (hN : PrintsBack N rnd) (junk : Char) (q q0 : Quat) (rest : List Char) :
    let norm := Real.sqrt (rnd q.w ^ 2 + ∑ i, rnd (q.vec.elem i) ^ 2)
    ∃ q', Quat.read N junk q0 ⟨q.print N ++ rest, false⟩ = .ok q' ⟨rest, false⟩ ∧ q'.valid = true ∧ q'.vec.valid = true ∧
      q'.w = rnd q.w / norm ∧ (∀ i, q'.vec.elem i = rnd (q.vec.elem i) / norm) ∧
      (norm = 1 → q'.w = rnd q.w ∧ ∀ i, q'.vec.elem i = rnd (q.vec.elem i)) := by
  intro norm
  have e : q.print N ++ rest = ['Q','u','a','t','e','r','n','i','o','n',':',' '] ++ '(' :: (N.fmt q.w ++ ',' :: (q.vec.print N ++ ')' :: rest)) := by
    simp [Quat.print, lblQuat]
  have hn : Real.sqrt (rnd q.w * rnd q.w + (⟨fun i => rnd (q.vec.elem i), true⟩ : Vec 3).sqrMag) = norm := by
    show _ = Real.sqrt _
    congr 1
    rw [Vec.sqrMag_eq, pow_two]
    congr 1
    unfold dotProduct
    refine Finset.sum_congr rfl fun i _ => by rw [pow_two]
  have hread : Quat.read N junk q0 ⟨q.print N ++ rest, false⟩ =
      .ok ⟨rnd q.w / norm, (⟨fun i => rnd (q.vec.elem i), true⟩ : Vec 3).divBy norm, true, q0.age⟩ ⟨rest, false⟩ := by
    unfold Quat.read
    rw [e, skipTo_label isParen '(' _ (by decide) (by decide) _ _ (by decide)]
    simp only [afterSkip]
    rw [getNum_ok (hN q.w _ (by intro c hc; simp at hc; left; exact hc.symm))]
    simp only [Option.getD_some]
    rw [getChar_char _ ',' _ (by decide)]
    simp only [ne_eq, not_true_eq_false, if_false]
    have := Vec.read_print hN junk q.vec [] (')' :: rest) (by simp)
    rw [List.nil_append] at this
    rw [this]
    simp only [Read.bind]
    rw [getChar_char _ ')' _ (by decide), hn]
    simp
  refine ⟨_, hread, rfl, rfl, rfl, fun i => rfl, fun h1 => ?_⟩
  constructor
  · show rnd q.w / norm = _; rw [h1, div_one]
  · intro i; show rnd (q.vec.elem i) / norm = _; rw [h1, div_one]

/-- Non-vacuity: the identity quaternion, printed and read with the unary printer. -/
example : ∃ q', Quat.read unaryIO 'x' Quat.default ⟨Quat.identity.print unaryIO ++ [], false⟩ = .ok q' ⟨[], false⟩ ∧ q'.w = 1 := by
  obtain ⟨q', h1, -, -, -, -, h2⟩ := C77_quaternion unaryIO_printsBack 'x' Quat.identity Quat.default []
  refine ⟨q', h1, ?_⟩
  have := (h2 (by simp [Quat.identity, Vec.zero])).1
  rw [this]; simp [Quat.identity]

/-! ### FromString and its precision -/

/-- A printer that writes `1/√2` with two digits, as `0.71` (coded as the single digit `7`), and everything else as `0`. -/
noncomputable def twoDigits : NumIO where
  fmt x := if x = Real.sqrt (1 / 2) then ['7'] else if x = -Real.sqrt (1 / 2) then ['-', '7'] else ['0']
  parse t := match t with
    | '7' :: r => some (71 / 100, r)
    | '-' :: '7' :: r => some (-71 / 100, r)
    | '0' :: r => some (0, r)
    | _ => none

/-- The number `twoDigits` prints. -/
noncomputable def twoDigitsRnd (x : ℝ) : ℝ := if x = Real.sqrt (1 / 2) then 71 / 100 else if x = -Real.sqrt (1 / 2) then -71 / 100 else 0

theorem twoDigits_printsBack : PrintsBack twoDigits twoDigitsRnd := by
  intro x rest _
  unfold twoDigits twoDigitsRnd
  by_cases h1 : x = Real.sqrt (1 / 2)
  · simp [h1]
  · by_cases h2 : x = -Real.sqrt (1 / 2)
    · have h3 : ¬ (-Real.sqrt (1 / 2) = Real.sqrt (1 / 2)) := by rw [← h2]; exact h1
      simp only [h2, if_neg h3, if_true]; rfl
    · simp only [if_neg h1, if_neg h2]; rfl

/-- The rotation by 45 degrees. -/
noncomputable def eighth : RotMat 2 :=
  ⟨!![Real.sqrt (1 / 2), Real.sqrt (1 / 2); -Real.sqrt (1 / 2), Real.sqrt (1 / 2)], false, true, 1⟩

theorem eighth_isRotation : IsRotation eighth := by
  have h : Real.sqrt (1 / 2) * Real.sqrt (1 / 2) = 1 / 2 := Real.mul_self_sqrt (by norm_num)
  unfold eighth
  refine ⟨?_, ?_⟩
  · ext i j
    fin_cases i <;> fin_cases j <;> simp [Matrix.mul_apply, Fin.sum_univ_two] <;> norm_num at h ⊢ <;> linarith
  · rw [Matrix.det_fin_two]
    simp
    norm_num at h ⊢
    linarith

/-- C77 fails for `ToString` and `FromString` with fewer digits than the default: the text of the 45 degree rotation printed with two
digits (`0.71`) is refused by `FromString(m, text, 2)`, which ignores its precision argument. A stream of precision 2
does not refuse it at the first check. -/
theorem C77_fromString_false : IsRotation eighth ∧
    (∀ (L : Gauss.Limits) (fuel : Nat) (junk : Char) (m0 : RotMat 2),
      fromString (fun prec s => RotMat.read L (fuel + 1) twoDigits junk prec m0 s) (eighth.print twoDigits) 2 = .parseError) ∧
    RotMat.orthError (Matrix.of fun i j => twoDigitsRnd (eighth.elem i j)) ≤ floatMax epsilon (getEpsilon 2) := by
  have hs : Real.sqrt (1 / 2) ≠ -Real.sqrt (1 / 2) := by
    have : 0 < Real.sqrt (1 / 2) := Real.sqrt_pos.2 (by norm_num)
    intro h; linarith
  have hmat : (Matrix.of fun i j => twoDigitsRnd (eighth.elem i j) : Matrix (Fin 2) (Fin 2) ℝ) = !![71 / 100, 71 / 100; -71 / 100, 71 / 100] := by
    ext i j
    have h1 : twoDigitsRnd (Real.sqrt (1 / 2)) = 71 / 100 := by unfold twoDigitsRnd; rw [if_pos rfl]
    have h2 : twoDigitsRnd (-Real.sqrt (1 / 2)) = -71 / 100 := by unfold twoDigitsRnd; rw [if_neg (Ne.symm hs), if_pos rfl]
    fin_cases i <;> fin_cases j
    · exact h1
    · exact h1
    · exact h2
    · exact h1
  have he2 := epsilon_lt
  have he1 := epsilon_pos
  norm_num at he2
  have hm : (!![71 / 100, 71 / 100; -71 / 100, 71 / 100] * !![71 / 100, 71 / 100; -71 / 100, 71 / 100]ᵀ - 1 : Matrix (Fin 2) (Fin 2) ℝ) =
      !![82 / 10000, 0; 0, 82 / 10000] := by
    ext i j
    rw [Matrix.sub_apply, Matrix.mul_apply, Fin.sum_univ_two]
    fin_cases i <;> fin_cases j <;> norm_num [Matrix.one_apply]
  refine ⟨eighth_isRotation, ?_, ?_⟩
  · intro L fuel junk m0
    simp only [fromString]
    have := readMat_print twoDigits_printsBack L (fuel + 1) junk 6 eighth m0 [] [] (by simp)
    rw [List.nil_append, List.append_nil] at this
    rw [this, (C46_refuses L fuel m0 _ _).2 ?_]
    refine ⟨0, 0, ?_⟩
    rw [hmat]
    have h6 : floatMax epsilon (getEpsilon 6) = 1 / 100000 := by
      have : getEpsilon 6 = 1 / 100000 := by unfold getEpsilon; rw [show ((6 : ℤ) - 1).toNat = 5 by decide]; norm_num
      rw [this]; unfold floatMax; rw [if_neg (by linarith)]
    rw [h6]
    rw [hm]
    norm_num
  · rw [hmat]
    have h6 : floatMax epsilon (getEpsilon 2) = 1 / 10 := by
      have : getEpsilon 2 = 1 / 10 := by unfold getEpsilon; norm_num
      rw [this]; unfold floatMax; rw [if_neg (by linarith)]
    rw [h6, RotMat.orthError_le]
    refine ⟨by norm_num, fun i j => ?_⟩
    rw [hm]
    fin_cases i <;> fin_cases j <;> norm_num

end WFMath
