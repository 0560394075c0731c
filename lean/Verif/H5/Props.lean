import Verif.H5.Model
import Mathlib.Tactic.Linarith
import Mathlib.Tactic.Push
import Mathlib.Algebra.Order.BigOperators.Group.List
import Mathlib.Data.Nat.Basic

/-!
# C114: arrays in files
-/

namespace Verif.H5

variable {α : Type}

/-! ### The file -/

theorem open_append_self (f : File α) (path : String) (d : Dataset α) (h : open? f path = none) : open? (f ++ [(path, d)]) path = some d := by
  simp only [open?, Option.map_eq_none_iff] at h
  simp [open?, List.find?_append, h]

theorem open_append_ne (f : File α) (path p : String) (d : Dataset α) (h : p ≠ path) : open? (f ++ [(path, d)]) p = open? f p := by
  simp only [open?, List.find?_append]
  cases hf : f.find? (fun x => decide (x.1 = p)) with
  | none => simp [Ne.symm h]
  | some x => simp

/-- What a caller sees of a successful write: the dataset has the given extents and values and no other dataset has changed. -/
def Stored (f f' : File α) (path : String) (dims : List Nat) (data : List α) : Prop :=
  open? f path = none ∧ open? f' path = some ⟨dims, data⟩ ∧ ∀ p, p ≠ path → open? f' p = open? f p

theorem createFrom_ok (f f' : File α) (path : String) (dims : List Nat) (buf : List α) (h : createFrom f path dims buf = .ok f') :
    dims.prod ≤ buf.length ∧ Stored f f' path dims (buf.take dims.prod) := by
  unfold createFrom at h
  cases ho : open? f path with
  | some d => rw [ho] at h; cases h
  | none =>
    rw [ho] at h
    simp only at h
    split_ifs at h with hle
    cases h
    exact ⟨hle, ho, open_append_self f path _ ho, fun p hp => open_append_ne f path p _ hp⟩

theorem createFrom_new (f : File α) (path : String) (dims : List Nat) (buf : List α) (hl : dims.prod = buf.length) (h : open? f path = none) :
    ∃ f', createFrom f path dims buf = .ok f' ∧ Stored f f' path dims buf := by
  unfold createFrom
  rw [h]
  simp only [hl, le_refl, if_true, List.take_length]
  exact ⟨_, rfl, h, open_append_self f path _ h, fun p hp => open_append_ne f path p _ hp⟩

/-! ### Writing -/

/-- C114: `write` of a vector stores it as one-dimensional data under a new name; a name in use is an exception. -/
theorem C114_write_vec (f : File α) (path : String) (data : List α) :
    (open? f path = none → ∃ f', writeVec f path data = .ok f' ∧ Stored f f' path [data.length] data) ∧
    (open? f path ≠ none → writeVec f path data = .exc) := by
  constructor
  · exact createFrom_new f path _ _ (by simp)
  · intro h
    unfold writeVec createFrom
    cases ho : open? f path with
    | none => exact absurd ho h
    | some d => rfl

/-- C114: `write` of a Blitz array stores it with its extents, or throws. -/
theorem C114_write_array (f : File α) (path : String) (a : Arr α) (ha : a.data.length = a.shape.prod) :
    (a.contiguous → open? f path = none → ∃ f', writeArr f path a = .ok f' ∧ Stored f f' path a.shape a.data) ∧
    (¬ a.contiguous ∨ open? f path ≠ none → writeArr f path a = .exc) := by
  constructor
  · intro hc ho
    unfold writeArr
    rw [if_neg (by simp [hc]), if_neg (by simp [ha])]
    exact createFrom_new f path _ _ ha.symm ho
  · intro h
    unfold writeArr createFrom
    by_cases hc : a.contiguous
    · rw [if_neg (by simp [hc]), if_neg (by simp [ha])]
      cases ho : open? f path with
      | none => simp [hc, ho] at h
      | some d => rfl
    · rw [if_pos hc]

/-- C114: with extents that fit the number of values, `write` with extents stores them, or throws. -/
theorem C114_write_dims_partial [Zero α] (debug : Bool) (f : File α) (path : String) (data : List α) (dims : List Nat) (hd : dims.prod = data.length)
    (ho : open? f path = none) (shape : List Nat) :
    (∃ f', writeVecDims debug f path data dims = .ok f' ∧ Stored f f' path dims data) ∧
    (∃ f', writeArr1 f path ⟨shape, true, data⟩ dims = .ok f' ∧ Stored f f' path dims data) ∧
    (∃ f', writeIter f path data dims = .ok f' ∧ Stored f f' path dims data) := by
  refine ⟨?_, ?_, ?_⟩
  · unfold writeVecDims
    rw [if_neg (by simp [hd])]
    exact createFrom_new f path _ _ hd ho
  · unfold writeArr1
    rw [if_pos rfl]
    exact createFrom_new f path _ _ hd ho
  · unfold writeIter create
    rw [if_pos (by omega), ho]
    simp only [hd, Nat.sub_self, List.replicate_zero, List.append_nil]
    exact ⟨_, rfl, ho, open_append_self f path _ ho, fun p hp => open_append_ne f path p _ hp⟩

/-- C114, as one would want it: a write with extents stores exactly the given values or ends with an exception or an assertion, whatever the extents. -/
def C114_write_claim : Prop :=
  ∀ (debug : Bool) (f : File Int) (path : String) (data : List Int) (dims : List Nat),
    (∀ r ∈ [writeVecDims debug f path data dims, writeArr1 f path ⟨[data.length], true, data⟩ dims, writeIter f path data dims],
      r = .exc ∨ r = .abort ∨ ∃ f', r = .ok f' ∧ Stored f f' path dims data)

/-- C114 fails: extents that are too large read past the end of a vector, even that of an array in a build with assertions; with iterators they are padded with zeros. -/
theorem C114_write_claim_false : ¬ C114_write_claim := by
  intro h
  have h1 := h true [] "x" [1, 2] [3] (writeArr1 [] "x" ⟨[2], true, [1, 2]⟩ [3]) (by simp)
  have h2 : writeArr1 ([] : File Int) "x" ⟨[2], true, [1, 2]⟩ [3] = .ub := by decide
  rw [h2] at h1
  simp at h1

/-- C114: the outcomes with extents that do not fit, exactly. -/
theorem C114_write_misfit [Zero α] (f : File α) (path : String) (data : List α) (dims : List Nat) (shape : List Nat) (ho : open? f path = none) :
    (data.length < dims.prod → writeVecDims true f path data dims = .abort ∧ writeVecDims false f path data dims = .ub ∧
      writeArr1 f path ⟨shape, true, data⟩ dims = .ub ∧
      ∃ f', writeIter f path data dims = .ok f' ∧ Stored f f' path dims (data ++ List.replicate (dims.prod - data.length) 0)) ∧
    (dims.prod < data.length → writeVecDims true f path data dims = .abort ∧
      (∃ f', writeVecDims false f path data dims = .ok f' ∧ Stored f f' path dims (data.take dims.prod)) ∧
      (∃ f', writeArr1 f path ⟨shape, true, data⟩ dims = .ok f' ∧ Stored f f' path dims (data.take dims.prod)) ∧ writeIter f path data dims = .ub) := by
  have hs : ∀ d : Dataset α, open? (f ++ [(path, d)]) path = some d ∧ ∀ p, p ≠ path → open? (f ++ [(path, d)]) p = open? f p :=
    fun d => ⟨open_append_self f path _ ho, fun p hp => open_append_ne f path p _ hp⟩
  constructor
  · intro h
    refine ⟨?_, ?_, ?_, ?_⟩
    · unfold writeVecDims
      rw [if_pos ⟨rfl, by omega⟩]
    · unfold writeVecDims createFrom
      rw [if_neg (by simp), ho]
      simp only
      rw [if_neg (by omega)]
    · unfold writeArr1 createFrom
      rw [if_pos rfl, ho]
      simp only
      rw [if_neg (by omega)]
    · unfold writeIter create
      rw [if_pos (by omega), ho]
      exact ⟨_, rfl, ho, (hs _).1, (hs _).2⟩
  · intro h
    refine ⟨?_, ?_, ?_, ?_⟩
    · unfold writeVecDims
      rw [if_pos ⟨rfl, by omega⟩]
    · unfold writeVecDims createFrom
      rw [if_neg (by simp), ho]
      simp only
      rw [if_pos (by omega)]
      exact ⟨_, rfl, ho, (hs _).1, (hs _).2⟩
    · unfold writeArr1 createFrom
      rw [if_pos rfl, ho]
      simp only
      rw [if_pos (by omega)]
      exact ⟨_, rfl, ho, (hs _).1, (hs _).2⟩
    · unfold writeIter
      rw [if_neg (by omega)]

/-! ### Reading -/

theorem sameShape_ok (d s : List Nat) : sameShape d s = .ok () ↔ d <+: s := by
  induction d generalizing s with
  | nil => simp [sameShape]
  | cons x d ih =>
    cases s with
    | nil => simp [sameShape]
    | cons y s =>
      simp only [sameShape, List.cons_prefix_cons]
      split_ifs with h
      · simp [Ne.symm h]
      · push Not at h
        rw [ih]
        simp [h]

theorem sameShape_ub (d s : List Nat) : sameShape d s = .ub ↔ s <+: d ∧ s.length < d.length := by
  induction d generalizing s with
  | nil => simp [sameShape]
  | cons x d ih =>
    cases s with
    | nil => simp [sameShape]
    | cons y s =>
      simp only [sameShape, List.cons_prefix_cons]
      split_ifs with h
      · simp [h]
      · push Not at h
        rw [ih]
        simp [h]

theorem sameShape_cases (d s : List Nat) : sameShape d s = .ok () ∨ sameShape d s = .ub ∨ sameShape d s = .exc := by
  induction d generalizing s with
  | nil => simp [sameShape]
  | cons x d ih =>
    cases s with
    | nil => simp [sameShape]
    | cons y s =>
      simp only [sameShape]
      split_ifs
      · simp
      · exact ih s

theorem prefix_prod (d s : List Nat) (h : d <+: s) (hs : 0 < s.prod) : d.prod ≤ s.prod := by
  obtain ⟨t, rfl⟩ := h
  rw [List.prod_append] at hs ⊢
  exact Nat.le_mul_of_pos_right _ (Nat.pos_of_ne_zero fun h => by simp [h] at hs)

/-- An array as Blitz has it, and a dataset as the library has it. -/
def Arr.Ok (a : Arr α) : Prop := a.data.length = a.shape.prod
def Dataset.Ok (d : Dataset α) : Prop := d.data.length = d.dims.prod

/-- C114: reading into an empty array takes extents and values of the dataset (one-dimensional arrays: all values in storage order); a different number of dimensions is an
exception. -/
theorem C114_read_empty (f : File α) (path : String) (d : Dataset α) (ho : open? f path = some d) (a : Arr α) (ha : a.data = []) :
    (a.shape.length = 1 → readArr f path a = .ok ⟨[d.dims.prod], true, d.data⟩) ∧
    (a.shape.length ≠ 1 → a.shape.length = d.dims.length → readArr f path a = .ok ⟨d.dims, true, d.data⟩) ∧
    (a.shape.length ≠ 1 → a.shape.length ≠ d.dims.length → readArr f path a = .exc) := by
  unfold readArr
  simp only [ho, ha, List.length_nil, lt_irrefl, false_and, if_false, if_true]
  refine ⟨fun h => by simp [h], fun h h' => ?_, fun h h' => ?_⟩
  · rw [if_neg h, if_neg (by simp [h'])]
  · rw [if_neg h, if_pos h']

/-- C114: reading into a one-dimensional array with elements needs as many values as it has elements. -/
theorem C114_read_line (f : File α) (path : String) (d : Dataset α) (ho : open? f path = some d) (a : Arr α) (h0 : 0 < a.data.length) (h1 : a.shape.length = 1) :
    readArr f path a = if a.contiguous ∧ a.data.length = d.dims.prod then .ok ⟨a.shape, true, d.data⟩ else .exc := by
  unfold readArr
  rw [ho]
  by_cases hc : a.contiguous
  · rw [if_neg (by simp [hc])]
    simp only
    rw [if_neg (by omega), if_pos h1]
    by_cases he : a.data.length = d.dims.prod
    · rw [if_neg (by simp [he]), if_pos ⟨hc, he⟩]
    · rw [if_pos he, if_neg (fun h => he h.2)]
  · rw [if_pos ⟨h0, hc⟩, if_neg (fun h => hc h.1)]

/-- C114: reading into an array of several dimensions with elements, exactly: the extents of the dataset need only be the first ones of the array; if the dataset has more
dimensions than the array and the others agree, extents outside of the array's are read. -/
theorem C114_read_grid (f : File α) (path : String) (d : Dataset α) (ho : open? f path = some d) (a : Arr α) (hok : a.Ok) (h0 : 0 < a.data.length)
    (hc : a.contiguous) (h1 : a.shape.length ≠ 1) :
    (d.dims <+: a.shape → readArr f path a = .ok ⟨a.shape, true, d.data ++ a.data.drop d.dims.prod⟩) ∧
    (a.shape <+: d.dims → a.shape.length < d.dims.length → readArr f path a = .ub) ∧
    (¬ d.dims <+: a.shape → ¬ a.shape <+: d.dims → readArr f path a = .exc) := by
  have key : readArr f path a = match sameShape d.dims a.shape with
      | .ok () => if d.dims.prod ≤ a.data.length then .ok ⟨a.shape, true, d.data ++ a.data.drop d.dims.prod⟩ else .ub
      | .exc => .exc
      | .abort => .abort
      | .ub => .ub := by
    unfold readArr
    rw [ho, if_neg (by simp [hc])]
    simp only
    rw [if_neg (by omega), if_neg h1]
    rfl
  rw [key]
  refine ⟨fun h => ?_, fun h h' => ?_, fun h h' => ?_⟩
  · rw [(sameShape_ok _ _).2 h]
    simp only
    have := prefix_prod _ _ h (by rw [← hok]; exact h0)
    rw [if_pos (by rw [hok]; exact this)]
  · rw [(sameShape_ub _ _).2 ⟨h, h'⟩]
  · rcases sameShape_cases d.dims a.shape with e | e | e
    · exact absurd ((sameShape_ok _ _).1 e) h
    · exact absurd ((sameShape_ub _ _).1 e).1 h'
    · rw [e]

/-- C114, as documented ("the array has the same dimensions as the HDF5 database", "space allocated for the same number of elements"): reading into an array that has elements
gives the dataset's values in the array's extents, or an exception; for arrays of several dimensions only if the extents are the same. -/
def C114_read_claim : Prop :=
  ∀ (f : File Int) (path : String) (d : Dataset Int) (a : Arr Int), open? f path = some d → d.Ok → a.Ok → 0 < a.data.length →
    readArr f path a = .exc ∨ (readArr f path a = .ok ⟨a.shape, true, d.data⟩ ∧ (a.shape.length ≠ 1 → d.dims = a.shape))

/-- C114 fails: a dataset of 2 values is read into an array of 2 times 3 elements, of which the last four stay; one of 2 times 3 times 1 values reads past the extents. -/
theorem C114_read_claim_false : ¬ C114_read_claim := by
  intro h
  have := h [("x", ⟨[2], [1, 2]⟩)] "x" ⟨[2], [1, 2]⟩ ⟨[2, 3], true, [0, 0, 0, 0, 0, 0]⟩ rfl rfl rfl (by decide)
  revert this
  decide

/-- C114: with as many dimensions as the dataset, or with one, reading is as documented. -/
theorem C114_read_partial (f : File α) (path : String) (d : Dataset α) (a : Arr α) (ho : open? f path = some d) (hd : d.Ok) (ha : a.Ok) (h0 : 0 < a.data.length)
    (hn : a.shape.length = 1 ∨ a.shape.length = d.dims.length) :
    readArr f path a = .exc ∨ (readArr f path a = .ok ⟨a.shape, true, d.data⟩ ∧ (a.shape.length ≠ 1 → d.dims = a.shape)) := by
  by_cases h1 : a.shape.length = 1
  · rw [C114_read_line f path d ho a h0 h1]
    split_ifs
    · exact Or.inr ⟨rfl, fun h => absurd h1 h⟩
    · exact Or.inl rfl
  · have hl := hn.resolve_left h1
    by_cases hc : a.contiguous
    · obtain ⟨g1, -, g3⟩ := C114_read_grid f path d ho a ha h0 hc h1
      by_cases hp : d.dims <+: a.shape
      · have he : d.dims = a.shape := hp.eq_of_length hl.symm
        refine Or.inr ⟨?_, fun _ => he⟩
        rw [g1 hp]
        congr 2
        rw [List.drop_eq_nil_of_le (by rw [he]; exact le_of_eq ha), List.append_nil]
      · exact Or.inl (g3 hp fun h => hp (by rw [h.eq_of_length hl]; exact List.prefix_refl _))
    · left
      unfold readArr
      rw [if_pos ⟨h0, hc⟩]

/-- C114: `read` into a vector: exactly one-dimensional datasets, with as many values as the vector has elements if it has any. -/
theorem C114_read_vec (f : File α) (path : String) (d : Dataset α) (ho : open? f path = some d) (v : List α) :
    readVec f path v = if d.dims.length = 1 ∧ (v = [] ∨ v.length = d.dims.prod) then .ok d.data else .exc := by
  unfold readVec
  rw [ho]
  simp only
  by_cases h : d.dims.length = 1
  · rw [if_neg (by simp [h])]
    by_cases hv : v.length = 0
    · rw [if_pos hv, if_pos ⟨h, Or.inl (List.length_eq_zero_iff.1 hv)⟩]
    · rw [if_neg hv]
      by_cases he : v.length = d.dims.prod
      · rw [if_neg (by simp [he]), if_pos ⟨h, Or.inr he⟩]
      · rw [if_pos he, if_neg (fun hh => hh.2.elim (fun e => hv (by simp [e])) he)]
  · rw [if_pos h, if_neg (fun hh => h hh.1)]

/-- C114: `read_1d`: datasets of any dimensions, values in storage order; an array whose elements are not contiguous is not noticed. -/
theorem C114_read_1d (f : File α) (path : String) (d : Dataset α) (ho : open? f path = some d) (a : Arr α) (hd : d.Ok) :
    (a.data = [] → read1d f path a = .ok ⟨[d.data.length], true, d.data⟩) ∧
    (0 < a.data.length → a.data.length ≠ d.data.length → read1d f path a = .exc) ∧
    (0 < a.data.length → a.data.length = d.data.length → a.contiguous → read1d f path a = .ok ⟨a.shape, true, d.data⟩) ∧
    (0 < a.data.length → a.data.length = d.data.length → ¬ a.contiguous → read1d f path a = .ub) := by
  unfold Dataset.Ok at hd
  unfold read1d
  rw [ho]
  simp only
  refine ⟨fun h => by simp [h, hd], fun h h' => ?_, fun h h' hc => ?_, fun h h' hc => ?_⟩
  · rw [if_neg (by omega), if_pos (by omega)]
  · rw [if_neg (by omega), if_neg (by omega), if_pos hc]
  · rw [if_neg (by omega), if_neg (by omega), if_neg hc]

/-- C114: what one `write` of an array or a vector has stored, `read` gives back: to an empty array with as many dimensions, to one of the same extents, to a vector. -/
theorem C114_roundtrip (f f' : File α) (path : String) (a : Arr α) (ha : a.Ok) (h : writeArr f path a = .ok f') :
    (∀ c, readArr f' path ⟨List.replicate a.shape.length 0, c, []⟩ = .ok ⟨a.shape, true, a.data⟩) ∧
    (∀ b : Arr α, b.Ok → b.shape = a.shape → b.contiguous → 0 < a.data.length → readArr f' path b = .ok ⟨a.shape, true, a.data⟩) ∧
    (a.shape.length = 1 → readVec f' path [] = .ok a.data) := by
  have hs : Stored f f' path a.shape a.data := by
    unfold writeArr at h
    split_ifs at h with h1 h2
    have := (createFrom_ok f f' path _ _ h).2
    rwa [← ha, List.take_length] at this
  obtain ⟨-, ho, -⟩ := hs
  refine ⟨fun c => ?_, fun b hb he hc h0 => ?_, fun h1 => ?_⟩
  · obtain ⟨g1, g2, -⟩ := C114_read_empty f' path _ ho ⟨List.replicate a.shape.length 0, c, []⟩ rfl
    by_cases h1 : a.shape.length = 1
    · rw [g1 (by simpa using h1)]
      obtain ⟨x, hx⟩ := List.length_eq_one_iff.1 h1
      simp [hx]
    · exact g2 (by simpa using h1) (by simp)
  · have hbl : b.data.length = a.data.length := by
      rw [show b.data.length = b.shape.prod from hb, he, ← ha]
    rcases C114_read_partial f' path _ b ho ha hb (by omega) (Or.inr (by rw [he])) with e | ⟨e, -⟩
    · exfalso
      by_cases h1 : b.shape.length = 1
      · rw [C114_read_line f' path _ ho b (by omega) h1, if_pos ⟨hc, by rw [hbl]; exact ha⟩] at e
        cases e
      · rw [(C114_read_grid f' path _ ho b hb (by omega) hc h1).1 (by rw [he]; exact List.prefix_refl _)] at e
        cases e
    · rw [e, he]
  · rw [C114_read_vec f' path _ ho [], if_pos ⟨h1, Or.inl rfl⟩]

/-- C114: what a number is after it is read: unchanged from a dataset without values, the value of a dataset with one; a dataset with several overwrites what follows. -/
theorem C114_read_scalar (f : File α) (path : String) (x : α) :
    (open? f path = none → readScalar f path x = .exc) ∧
    ∀ d, open? f path = some d → (d.data.length = 0 → readScalar f path x = .ok x) ∧ (∀ y, d.data = [y] → readScalar f path x = .ok y) ∧
      (1 < d.data.length → readScalar f path x = .ub) := by
  refine ⟨fun h => by simp [readScalar, h], fun d h => ⟨fun hl => ?_, fun y hy => by simp [readScalar, h, hy], fun hl => ?_⟩⟩
  · simp [readScalar, h, List.length_eq_zero_iff.mp hl]
  · unfold readScalar
    rw [h]
    obtain ⟨dims, data⟩ := d
    match data, hl with
    | _ :: _ :: _, _ => rfl

/-- C114: a number is read back as written. -/
theorem C114_scalar (f f' : File α) (path : String) (x y : α) (h : writeScalar f path x = .ok f') : readScalar f' path y = .ok x := by
  have := (createFrom_ok f f' path _ _ h).2.2.1
  unfold readScalar
  rw [this]
  rfl

/-! ### Examples -/

example : writeVecDims true ([] : File Int) "k" [1, 2, 3, 4, 5, 6] [2, 3] = .ok [("k", ⟨[2, 3], [1, 2, 3, 4, 5, 6]⟩)] := by decide

example : writeIter ([("k", ⟨[1], [7]⟩)] : File Int) "k" [1] [1] = .exc := by decide

/-- Padded with zeros, without notice. -/
example : writeIter ([] : File Int) "k" [1, 2] [2, 2] = .ok [("k", ⟨[2, 2], [1, 2, 0, 0]⟩)] := by decide

/-- A dataset of one dimension into an array of two: the second row stays. -/
example : readArr ([("k", ⟨[2], [1, 2]⟩)] : File Int) "k" ⟨[2, 2], true, [8, 8, 8, 8]⟩ = .ok ⟨[2, 2], true, [1, 2, 8, 8]⟩ := by decide

example : readArr ([("k", ⟨[1, 2, 1], [1, 2]⟩)] : File Int) "k" ⟨[1, 2], true, [8, 8]⟩ = .ub := by decide

example : ∃ f', writeArr ([] : File Int) "k" ⟨[2, 2], true, [1, 2, 3, 4]⟩ = .ok f' ∧ readArr f' "k" ⟨[0, 0], false, []⟩ = .ok ⟨[2, 2], true, [1, 2, 3, 4]⟩ :=
  ⟨_, rfl, (C114_roundtrip [] _ "k" ⟨[2, 2], true, [1, 2, 3, 4]⟩ rfl rfl).1 false⟩

example : writeScalar ([] : File Int) "n" 5 = .ok [("n", ⟨[1], [5]⟩)] := by decide

end Verif.H5
