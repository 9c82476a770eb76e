import Verif.Serialize
import Verif.UtilsProps
import Verif.SimpleModelsProps
import Verif.AsyncProps

/-! # C57, C58, C59: compression and serialisation of matrices -/

namespace Albatross

open Matrix

/-! ## C59: compression -/

theorem stringMaxSize_lt_error : stringMaxSize < contentSizeError := by
  unfold stringMaxSize contentSizeError; norm_num

theorem stringMaxSize_lt_unknown : stringMaxSize < contentSizeUnknown := by
  unfold stringMaxSize contentSizeUnknown; norm_num

theorem resizeBytes_overwrite {buffer written : Bytes} (n : Nat) (hn : n = written.length) :
    resizeBytes (overwrite buffer written) n = written := by
  subst hn
  unfold resizeBytes overwrite
  simp

theorem overwrite_full {buffer written : Bytes} (h : buffer.length ≤ written.length) :
    overwrite buffer written = written := by
  unfold overwrite
  rw [List.drop_eq_nil_of_le h, List.append_nil]

theorem length_resizeBytes (s : Bytes) (n : Nat) : (resizeBytes s n).length = n := by
  unfold resizeBytes
  simp
  omega

/-- The compressed string is what zstd wrote, nothing less and nothing more. -/
theorem zstdCompressBytes_eq {z : Zstd} (hz : z.Contract) (level : Int) {s : Bytes}
    (hs : s.length ≤ stringMaxSize) :
    zstdCompressBytes z level s = (z.compress level (z.compressBound s.length) s).2 := by
  unfold zstdCompressBytes
  simp only [length_resizeBytes]
  exact resizeBytes_overwrite _ (hz.compress_size level s hs)

theorem checkDecompressedSize_ok_iff (n : Nat) :
    checkDecompressedSize n = .ok ↔ n ≠ contentSizeUnknown ∧ n ≠ contentSizeError := by
  unfold checkDecompressedSize
  by_cases h1 : contentSizeUnknown = n
  · rw [if_pos h1]; simp [h1]
  · rw [if_neg h1]
    by_cases h2 : contentSizeError = n
    · rw [if_pos h2]; simp [h2]
    · rw [if_neg h2]
      exact ⟨fun _ => ⟨fun e => h1 e.symm, fun e => h2 e.symm⟩, fun _ => rfl⟩

theorem checkDecompressedSize_fits {n : Nat} (h : n ≤ stringMaxSize) : checkDecompressedSize n = .ok := by
  rw [checkDecompressedSize_ok_iff]
  have h1 := stringMaxSize_lt_unknown
  have h2 := stringMaxSize_lt_error
  constructor <;> omega

theorem failed_iff (r : DecompressResult) : r.failed = true ↔ r ≠ .ok := by
  unfold DecompressResult.failed
  by_cases h : r = .ok <;> simp [h]

theorem not_failed_iff (r : DecompressResult) : r.failed = false ↔ r = .ok := by
  unfold DecompressResult.failed
  by_cases h : r = .ok <;> simp [h]

/-- **C59**: decompression into a buffer succeeds exactly if the frame announces a known size equal to the
requested one and zstd returned that size; then the buffer holds the bytes zstd wrote and nothing else, all
`outputSize` of them. -/
theorem C59_maybe_decompress {z : Zstd} (hz : z.Contract) (input output : Bytes) {outputSize : Nat}
    (hsize : outputSize ≤ stringMaxSize) (hout : output.length = outputSize) :
    ((maybeDecompressBytes z input output outputSize).1 = .ok ↔
      z.frameContentSize input = outputSize ∧ (z.decompress input outputSize).1 = outputSize) ∧
    ((maybeDecompressBytes z input output outputSize).1 = .ok →
      (maybeDecompressBytes z input output outputSize).2 = (z.decompress input outputSize).2 ∧
      (z.decompress input outputSize).2.length = outputSize) := by
  unfold maybeDecompressBytes
  simp only
  by_cases hc : z.frameContentSize input = outputSize
  · have hchk : checkDecompressedSize (z.frameContentSize input) = .ok := by
      rw [hc]; exact checkDecompressedSize_fits hsize
    rw [hchk]
    have hf : DecompressResult.ok.failed = false := rfl
    rw [hf, if_neg (by simp), if_neg (by simpa using hc)]
    by_cases hr : (z.decompress input outputSize).1 = outputSize
    · rw [if_neg (by simpa using hr)]
      refine ⟨by simp [hc, hr], fun _ => ?_⟩
      have hlen : (z.decompress input outputSize).2.length = outputSize := by
        rcases hz.result input outputSize with h | h
        · rw [← h, hr]
        · omega
      exact ⟨overwrite_full (by omega), hlen⟩
    · rw [if_pos (by simpa using hr)]
      simp [hr]
  · by_cases hchk : checkDecompressedSize (z.frameContentSize input) = .ok
    · rw [hchk]
      have hf : DecompressResult.ok.failed = false := rfl
      rw [hf, if_neg (by simp), if_pos (by simpa using hc)]
      simp [hc]
    · rw [if_pos ((failed_iff _).2 hchk)]
      simp [hc, hchk]

/-- **C59**: a frame of unknown or invalid size, or of a size other than the requested one, is reported as a
failure, as is a decompression that ends early, and the reported reason is the right one. -/
theorem C59_failures (z : Zstd) (input output : Bytes) (outputSize : Nat) :
    (z.frameContentSize input = contentSizeUnknown →
      (maybeDecompressBytes z input output outputSize).1 = .contentSizeUnknown) ∧
    (z.frameContentSize input = contentSizeError →
      (maybeDecompressBytes z input output outputSize).1 = .contentSizeError) ∧
    (z.frameContentSize input ≠ contentSizeUnknown → z.frameContentSize input ≠ contentSizeError →
      z.frameContentSize input ≠ outputSize →
      (maybeDecompressBytes z input output outputSize).1 = .expectedRequestedSizeMismatch) ∧
    (outputSize ≤ stringMaxSize → z.frameContentSize input = outputSize →
      (z.decompress input outputSize).1 ≠ outputSize →
      (maybeDecompressBytes z input output outputSize).1 = .resultingRequestedSizeMismatch) := by
  have hne : contentSizeUnknown ≠ contentSizeError := by
    unfold contentSizeUnknown contentSizeError; norm_num
  refine ⟨fun h => ?_, fun h => ?_, fun h1 h2 h3 => ?_, fun h1 h2 h3 => ?_⟩
  · unfold maybeDecompressBytes
    have hc : checkDecompressedSize (z.frameContentSize input) = .contentSizeUnknown := by
      unfold checkDecompressedSize; rw [h, if_pos rfl]
    simp only [hc]
    rw [if_pos ((failed_iff _).2 (by simp))]
  · unfold maybeDecompressBytes
    have hc : checkDecompressedSize (z.frameContentSize input) = .contentSizeError := by
      unfold checkDecompressedSize; rw [h, if_neg hne, if_pos rfl]
    simp only [hc]
    rw [if_pos ((failed_iff _).2 (by simp))]
  · unfold maybeDecompressBytes
    have hc := (checkDecompressedSize_ok_iff _).2 ⟨h1, h2⟩
    simp only [hc]
    rw [if_neg (by rw [failed_iff]; simp), if_pos h3]
  · unfold maybeDecompressBytes
    have hc : checkDecompressedSize (z.frameContentSize input) = .ok := by
      rw [h2]; exact checkDecompressedSize_fits h1
    simp only [hc]
    rw [if_neg (by rw [failed_iff]; simp), if_neg (by simpa using h2), if_pos h3]

/-- **C59**: `maybe_decompress` for elements and for strings returns true only if all of the output was
written: the buffer then is exactly what zstd produced, of the announced size. -/
theorem C59_true_means_written {z : Zstd} (hz : z.Contract) (input : Bytes) :
    (∀ width nElements output, width * nElements ≤ stringMaxSize →
      output.length = width * nElements →
      (maybeDecompressElements z width input output nElements).1 = true →
      z.frameContentSize input = width * nElements ∧
      (maybeDecompressElements z width input output nElements).2 =
        (z.decompress input (width * nElements)).2 ∧
      (z.decompress input (width * nElements)).2.length = width * nElements) ∧
    (∀ output r, maybeDecompressString z input output = .ok (true, r) →
      r = (z.decompress input (z.frameContentSize input)).2 ∧ r.length = z.frameContentSize input) := by
  constructor
  · intro width n output hsize hlen h
    have hmod : width * n % 2 ^ 64 = width * n := by
      apply Nat.mod_eq_of_lt
      unfold stringMaxSize at hsize
      omega
    unfold maybeDecompressElements at h ⊢
    simp only [hmod] at h ⊢
    obtain ⟨h1, h2⟩ := C59_maybe_decompress hz input output hsize hlen
    by_cases hf : (maybeDecompressBytes z input output (width * n)).1 = .ok
    · rw [if_neg (by rw [failed_iff]; simp [hf])] at h ⊢
      exact ⟨(h1.1 hf).1, (h2 hf).1, (h2 hf).2⟩
    · rw [if_pos ((failed_iff _).2 hf)] at h
      simp at h
  · intro output r h
    unfold maybeDecompressString at h
    simp only at h
    by_cases hc : (checkDecompressedSize (z.frameContentSize input)).failed
    · rw [if_pos hc] at h
      have h := Except.ok.inj h
      simp at h
    · rw [if_neg hc] at h
      unfold resizeString at h
      by_cases hs : z.frameContentSize input ≤ stringMaxSize
      · rw [if_pos hs, except_ok_bind] at h
        obtain ⟨h1, h2⟩ := C59_maybe_decompress hz input (resizeBytes output (z.frameContentSize input)) hs
          (length_resizeBytes _ _)
        by_cases hf : (maybeDecompressBytes z input (resizeBytes output (z.frameContentSize input))
            (z.frameContentSize input)).1 = .ok
        · rw [if_neg (by rw [failed_iff]; simp [hf])] at h
          have h := Except.ok.inj h
          simp only [Prod.mk.injEq, true_and] at h
          rw [← h, (h2 hf).1]
          exact ⟨rfl, (h2 hf).2⟩
        · rw [if_pos ((failed_iff _).2 hf)] at h
          have h := Except.ok.inj h
          simp at h
      · rw [if_neg hs, except_error_bind] at h
        cases h

theorem decompress_compressed {z : Zstd} (hz : z.Contract) (level : Int) {s : Bytes}
    (hs : s.length ≤ stringMaxSize) {buffer : Bytes} (hb : buffer.length = s.length) :
    maybeDecompressBytes z (zstdCompressBytes z level s) buffer s.length = (.ok, s) := by
  rw [zstdCompressBytes_eq hz level hs]
  have hc := hz.content_size level s hs
  have hd := hz.round_trip level s s.length hs le_rfl
  obtain ⟨h1, h2⟩ := C59_maybe_decompress hz (z.compress level (z.compressBound s.length) s).2 buffer hs hb
  have hok := h1.2 ⟨hc, by rw [hd]⟩
  have h3 := (h2 hok).1
  rw [hd] at h3
  exact Prod.ext hok h3

/-- **C59**: decompressing what was compressed gives back the bytes, in every build, at every level, into a
fresh string, an existing string or an array of elements. -/
theorem C59_round_trip {z : Zstd} (hz : z.Contract) (b : Build) (level : Int) {s : Bytes}
    (hs : s.length ≤ stringMaxSize) :
    decompressString b z (zstdCompressBytes z level s) = .ok s ∧
    (∀ output, maybeDecompressString z (zstdCompressBytes z level s) output = .ok (true, s)) ∧
    (∀ width n output, width * n = s.length → output.length = s.length →
      maybeDecompressElements z width (zstdCompressBytes z level s) output n = (true, s) ∧
      decompressElements b z width (zstdCompressBytes z level s) output n = .ok s) := by
  have hc : z.frameContentSize (zstdCompressBytes z level s) = s.length := by
    rw [zstdCompressBytes_eq hz level hs]; exact hz.content_size level s hs
  have hok := checkDecompressedSize_fits hs
  refine ⟨?_, fun output => ?_, fun width n output hw hl => ?_⟩
  · unfold decompressString
    simp only [hc, hok]
    rw [show assertOnError b .ok = .ok () from rfl, except_ok_bind]
    unfold resizeString
    rw [if_pos hs, except_ok_bind]
    unfold decompressBytes
    rw [decompress_compressed hz level hs (length_resizeBytes _ _)]
    rfl
  · unfold maybeDecompressString
    simp only [hc, hok]
    rw [if_neg (by rw [failed_iff]; simp)]
    unfold resizeString
    rw [if_pos hs, except_ok_bind, decompress_compressed hz level hs (length_resizeBytes _ _),
      if_neg (by rw [failed_iff]; simp)]
    rfl
  · have hmod : s.length % 2 ^ 64 = s.length := by
      apply Nat.mod_eq_of_lt
      unfold stringMaxSize at hs
      omega
    constructor
    · unfold maybeDecompressElements
      rw [hw, hmod, decompress_compressed hz level hs hl]
      simp only
      rw [if_neg (by rw [failed_iff]; simp)]
    · unfold decompressElements
      rw [Nat.mul_comm n width, hw, hmod]
      unfold decompressBytes
      rw [decompress_compressed hz level hs hl]
      rfl

/-- **C59**: what cannot be decompressed trips the assertion of `decompress` in debug builds; under NDEBUG
`decompress` into an array is silent and an array of the wrong size is left as it was. -/
theorem C59_decompress_errors (z : Zstd) (width : Nat) (input output : Bytes) (n : Nat)
    (h : (maybeDecompressBytes z input output (n * width % 2 ^ 64)).1 ≠ .ok) :
    decompressElements .debug z width input output n = .error .assertFail ∧
    (z.frameContentSize input ≠ n * width % 2 ^ 64 →
      decompressElements .ndebug z width input output n = .ok output) := by
  constructor
  · unfold decompressElements decompressBytes
    simp only
    cases hr : (maybeDecompressBytes z input output (n * width % 2 ^ 64)).1 with
    | ok => exact absurd hr h
    | _ => rfl
  · intro hne
    have ho : (maybeDecompressBytes z input output (n * width % 2 ^ 64)).2 = output := by
      generalize n * width % 2 ^ 64 = k at *
      unfold maybeDecompressBytes
      simp only
      split_ifs <;> rfl
    unfold decompressElements decompressBytes
    simp only
    rw [ho]
    cases hr : (maybeDecompressBytes z input output (n * width % 2 ^ 64)).1 <;> rfl

/-- **C59**: a string that cannot be decompressed trips the assertion of `decompress` in debug builds. -/
theorem C59_decompress_string_debug {z : Zstd} (hz : z.Contract) (input out : Bytes)
    (h : decompressString .debug z input = .ok out) :
    z.frameContentSize input = out.length ∧ z.decompress input out.length = (out.length, out) := by
  unfold decompressString at h
  simp only at h
  by_cases hc : checkDecompressedSize (z.frameContentSize input) = .ok
  · rw [hc, show assertOnError .debug .ok = .ok () from rfl, except_ok_bind] at h
    unfold resizeString at h
    by_cases hs : z.frameContentSize input ≤ stringMaxSize
    · rw [if_pos hs, except_ok_bind] at h
      unfold decompressBytes at h
      obtain ⟨h1, h2⟩ := C59_maybe_decompress hz input (resizeBytes [] (z.frameContentSize input)) hs
        (length_resizeBytes _ _)
      by_cases hf : (maybeDecompressBytes z input (resizeBytes [] (z.frameContentSize input))
            (z.frameContentSize input)).1 = .ok
      · simp only at h
        rw [hf, show assertOnError .debug .ok = .ok () from rfl, except_ok_bind] at h
        have h := Except.ok.inj h
        rw [(h2 hf).1] at h
        have hl := (h2 hf).2
        rw [h] at hl
        refine ⟨hl.symm, ?_⟩
        rw [hl]
        exact Prod.ext (h1.1 hf).2 h
      · simp only at h
        cases hr : (maybeDecompressBytes z input (resizeBytes [] (z.frameContentSize input))
            (z.frameContentSize input)).1 with
        | ok => exact absurd hr hf
        | _ => rw [hr] at h; cases h
    · rw [if_neg hs, except_error_bind] at h
      cases h
  · cases hr : checkDecompressedSize (z.frameContentSize input) with
    | ok => exact absurd hr hc
    | _ => rw [hr] at h; cases h

/-- A compressor that stores its input, for the examples. -/
def storedZstd : Zstd where
  compressBound n := n + 1
  compress _ _ s := (s.length + 1, 7 :: s)
  frameContentSize s := match s with
    | 7 :: t => t.length
    | _ => contentSizeError
  decompress s capacity := match s with
    | 7 :: t => if t.length ≤ capacity then (t.length, t) else (2 ^ 63, [])
    | _ => (2 ^ 63, [])

theorem storedZstd_contract : storedZstd.Contract where
  compress_fits := by intro level src _; simp [storedZstd]
  compress_size := by intro level src _; simp [storedZstd]
  content_size := by intro level src _; simp [storedZstd]
  round_trip := by intro level src capacity _ h; simp [storedZstd, h]
  written_fits := by
    intro src capacity
    simp only [storedZstd]
    split
    · split_ifs with h
      · exact h
      · simp
    · simp
  result := by
    intro src capacity
    have h63 : stringMaxSize < 2 ^ 63 := by unfold stringMaxSize; norm_num
    simp only [storedZstd]
    split
    · split_ifs with h
      · exact Or.inl rfl
      · exact Or.inr h63
    · exact Or.inr h63

example : decompressString .debug storedZstd (zstdCompressBytes storedZstd 3 [1, 2, 3]) = .ok [1, 2, 3] :=
  (C59_round_trip storedZstd_contract .debug 3 (by unfold stringMaxSize; norm_num)).1

/-! ## C58: dense matrices -/

theorem read_write {α : Type} {s : ScalarRep α} (hs : s.Contract) (xs : List α) :
    s.read xs.length (s.write xs) = xs := by
  induction xs with
  | nil => rfl
  | cons x xs ih =>
    have h : s.write (x :: xs) = s.bytes x ++ s.write xs := rfl
    rw [List.length_cons, ScalarRep.read, h]
    have h1 : (s.bytes x ++ s.write xs).take s.width = s.bytes x := by
      rw [← hs.length x, List.take_left]
    have h2 : (s.bytes x ++ s.write xs).drop s.width = s.write xs := by
      rw [← hs.length x, List.drop_left]
    rw [h1, h2, hs.round_trip, ih]

theorem length_write {α : Type} {s : ScalarRep α} (hs : s.Contract) (xs : List α) :
    (s.write xs).length = s.width * xs.length := by
  induction xs with
  | nil => simp [ScalarRep.write]
  | cons x xs ih =>
    have h : s.write (x :: xs) = s.bytes x ++ s.write xs := rfl
    rw [h, List.length_append, ih, hs.length, List.length_cons]
    ring

/-- **C58**: a dense matrix of any shape and scalar type, empty ones included, survives saving and loading
through text and binary archives. -/
theorem C58_dense {α : Type} {z : Zstd} (hz : z.Contract) (gzip : Codec) {base64 : Codec}
    (h64 : base64.Contract) {s : ScalarRep α} (hs : s.Contract) (b : Build) (text : Bool) (uninit : Bytes)
    (m : Stored α) (hm : m.Valid) (hfit : s.width * (m.rows * m.cols) ≤ stringMaxSize)
    (hu : uninit.length = s.width * (m.rows * m.cols)) :
    loadDense b z gzip base64 s text uninit (saveDense z base64 s text m) = .ok m := by
  have hlen : (s.write m.data).length = s.width * (m.rows * m.cols) := by rw [length_write hs, hm]
  unfold loadDense saveDense
  simp only
  by_cases h0 : m.rows * m.cols = 0
  · rw [if_pos h0]
    have : m.data = [] := List.eq_nil_of_length_eq_zero (by rw [hm, h0])
    rw [show m = ⟨m.rows, m.cols, m.data⟩ from rfl, this]
    rfl
  · rw [if_neg h0]
    have hp : (if text = true then base64.decode (if text = true then
          base64.encode (zstdCompressBytes z 3 (s.write m.data)) else zstdCompressBytes z 3 (s.write m.data))
        else (if text = true then base64.encode (zstdCompressBytes z 3 (s.write m.data))
          else zstdCompressBytes z 3 (s.write m.data))) = zstdCompressBytes z 3 (s.write m.data) := by
      cases text
      · rfl
      · simp [h64 _]
    rw [hp]
    have hr := ((C59_round_trip hz b 3 (s := s.write m.data) (by rw [hlen]; exact hfit)).2.2 s.width
      (m.rows * m.cols) uninit hlen.symm (by rw [hu, hlen])).1
    rw [hr]
    simp only [Bool.not_true, Bool.false_eq_true, if_false]
    rw [← hm, read_write hs]
    rfl

/-- **C58**: archives written before zstd was used, with a gzip payload, still load, as long as zstd does not
take the payload for one of its frames of the expected size. -/
theorem C58_dense_legacy {α : Type} {z : Zstd} (hz : z.Contract) {gzip base64 : Codec} (hg : gzip.Contract)
    (h64 : base64.Contract) {s : ScalarRep α} (hs : s.Contract) (b : Build) (text : Bool) (uninit : Bytes)
    (m : Stored α) (hm : m.Valid) (hfit : s.width * (m.rows * m.cols) ≤ stringMaxSize)
    (hu : uninit.length = s.width * (m.rows * m.cols))
    (hforeign : z.frameContentSize (gzip.encode (s.write m.data)) ≠ s.width * (m.rows * m.cols)) :
    loadDense b z gzip base64 s text uninit ⟨m.rows, m.cols,
      if text then base64.encode (gzip.encode (s.write m.data)) else gzip.encode (s.write m.data)⟩ = .ok m := by
  have hlen : (s.write m.data).length = s.width * (m.rows * m.cols) := by rw [length_write hs, hm]
  unfold loadDense
  simp only
  by_cases h0 : m.rows * m.cols = 0
  · rw [if_pos h0]
    have : m.data = [] := List.eq_nil_of_length_eq_zero (by rw [hm, h0])
    rw [show m = ⟨m.rows, m.cols, m.data⟩ from rfl, this]
    rfl
  · rw [if_neg h0]
    have hp : (if text = true then base64.decode (if text = true then
          base64.encode (gzip.encode (s.write m.data)) else gzip.encode (s.write m.data))
        else (if text = true then base64.encode (gzip.encode (s.write m.data))
          else gzip.encode (s.write m.data))) = gzip.encode (s.write m.data) := by
      cases text
      · rfl
      · simp [h64 _]
    rw [hp]
    have hr : (maybeDecompressElements z s.width (gzip.encode (s.write m.data)) uninit
        (m.rows * m.cols)).1 = false := by
      cases h : (maybeDecompressElements z s.width (gzip.encode (s.write m.data)) uninit
        (m.rows * m.cols)).1 with
      | false => rfl
      | true => exact absurd ((C59_true_means_written hz _).1 _ _ _ hfit hu h).1 hforeign
    rw [hr]
    simp only [Bool.not_false, if_true]
    rw [hg, decide_eq_true (by rw [hlen, Nat.mul_comm]), albatrossAssert_true, except_ok_bind,
      if_neg (by rw [hlen, Nat.mul_comm]; exact lt_irrefl _), ← hm, read_write hs]
    rfl

/-! ### Rounding -/

theorem roundHalfEven_near {t : ℝ} (ht : 0 ≤ t) {n : Nat} (h : |t - n| < 1 / 2) : roundHalfEven t = n := by
  have h1 := roundHalfEven_spec ht
  have h2 : |((roundHalfEven t : ℝ)) - n| < 1 := by
    have := abs_sub_le (roundHalfEven t : ℝ) t n
    rw [abs_sub_comm (roundHalfEven t : ℝ) t] at this
    linarith
  have h3 : |((roundHalfEven t : Int)) - (n : Int)| < 1 := by
    have : ((|((roundHalfEven t : Int)) - (n : Int)| : Int) : ℝ) < 1 := by
      push_cast; exact h2
    exact_mod_cast this
  have h4 := Int.abs_lt_one_iff.1 h3
  omega

/-- Numbers of at most 53 bits are doubles. -/
theorem roundDouble_exact_lt {x : ℝ} (k : Nat) (j : Int) (hk : k < 2 ^ 53) (hx : |x| = k * (2 : ℝ) ^ j) :
    roundDouble x = x := by
  have hmag : ((roundHalfEven (|x| / (2 : ℝ) ^ (Int.log 2 |x| - 52)) : Nat) : ℝ) *
      (2 : ℝ) ^ (Int.log 2 |x| - 52) = |x| := by
    rcases Nat.eq_zero_or_pos k with h0 | hpos
    · have : |x| = 0 := by rw [hx, h0]; simp
      rw [this, zero_div]
      have := roundHalfEven_nat 0
      rw [Nat.cast_zero] at this
      rw [this]; simp
    · have hxpos : 0 < |x| := by rw [hx]; positivity
      have hlog : Int.log 2 |x| < 53 + j := by
        have h1 := Int.zpow_log_le_self (b := 2) (by norm_num) hxpos
        have h2 : |x| < (2 : ℝ) ^ (53 + j) := by
          rw [hx, zpow_add₀ (by norm_num)]
          apply mul_lt_mul_of_pos_right _ (by positivity)
          exact_mod_cast hk
        have h3 : ((2 : Nat) : ℝ) ^ Int.log 2 |x| < ((2 : Nat) : ℝ) ^ (53 + j) := by
          push_cast at h1 ⊢
          linarith
        exact (zpow_lt_zpow_iff_right₀ (by norm_num)).1 h3
      obtain ⟨d, hd⟩ : ∃ d : Nat, j - (Int.log 2 |x| - 52) = d :=
        ⟨(j - (Int.log 2 |x| - 52)).toNat, (Int.toNat_of_nonneg (by omega)).symm⟩
      have hdiv : |x| / (2 : ℝ) ^ (Int.log 2 |x| - 52) = ((k * 2 ^ d : Nat) : ℝ) := by
        rw [div_eq_iff (by positivity)]
        have : (2 : ℝ) ^ d = (2 : ℝ) ^ (j - (Int.log 2 |x| - 52)) := by rw [hd]; simp
        push_cast
        rw [this, mul_assoc, ← zpow_add₀ (by norm_num)]
        rw [show j - (Int.log 2 |x| - 52) + (Int.log 2 |x| - 52) = j by ring]
        exact hx
      rw [hdiv, roundHalfEven_nat, ← hdiv]
      field_simp
  unfold roundDouble
  simp only
  rw [hmag]
  split_ifs with h
  · rw [abs_of_neg h, neg_neg]
  · rw [abs_of_nonneg (not_lt.1 h)]

theorem roundDouble_exact {x : ℝ} (k : Nat) (j : Int) (hk : k ≤ 2 ^ 53) (hx : |x| = k * (2 : ℝ) ^ j) :
    roundDouble x = x := by
  rcases lt_or_eq_of_le hk with h | h
  · exact roundDouble_exact_lt k j h hx
  · apply roundDouble_exact_lt (2 ^ 52) (j + 1) (by norm_num)
    rw [hx, h, zpow_add₀ (by norm_num)]
    push_cast
    ring

theorem roundDouble_nat {n : Nat} (h : n ≤ 2 ^ 53) : roundDouble (n : ℝ) = n :=
  roundDouble_exact n 0 h (by simp)

theorem log_eq_of_bounds {x : ℝ} {k : Int} (h1 : (2 : ℝ) ^ k ≤ x) (h2 : x < (2 : ℝ) ^ (k + 1)) :
    Int.log 2 x = k := by
  have hpos : 0 < x := lt_of_lt_of_le (by positivity) h1
  have h3 := Int.zpow_log_le_self (b := 2) (by norm_num) hpos
  have h4 := Int.lt_zpow_succ_log_self (b := 2) (by norm_num) x
  push_cast at h3 h4
  have h5 : (2 : ℝ) ^ Int.log 2 x < (2 : ℝ) ^ (k + 1) := lt_of_le_of_lt h3 h2
  have h6 : (2 : ℝ) ^ k < (2 : ℝ) ^ (Int.log 2 x + 1) := lt_of_le_of_lt h1 h4
  have h7 := (zpow_lt_zpow_iff_right₀ (a := (2 : ℝ)) (by norm_num)).1 h5
  have h8 := (zpow_lt_zpow_iff_right₀ (a := (2 : ℝ)) (by norm_num)).1 h6
  omega

theorem roundDouble_of_log {x : ℝ} (hx : 0 < x) {e : Int} {n : Nat} (hlog : Int.log 2 x = e + 52)
    (hr : roundHalfEven (x / (2 : ℝ) ^ e) = n) : roundDouble x = n * (2 : ℝ) ^ e := by
  unfold roundDouble
  simp only
  rw [if_neg (not_lt.2 hx.le), abs_of_pos hx, hlog, show e + 52 - 52 = e by ring, hr]

/-- Beyond 2^53 the last bit of `1 + 8 s` is lost. -/
theorem roundDouble_disc {s : Nat} (h1 : 2 ^ 53 < 8 * s + 1) (h2 : 8 * s + 1 < 2 ^ 56) :
    roundDouble (1 + 8 * (s : ℝ)) = 8 * s := by
  have hpos : (0 : ℝ) < 1 + 8 * s := by positivity
  have hc : ((8 * s + 1 : Nat) : ℝ) = 1 + 8 * s := by push_cast; ring
  rcases Nat.lt_or_ge (8 * s + 1) (2 ^ 54) with h | h
  · have hlog : Int.log 2 (1 + 8 * (s : ℝ)) = 1 + 52 := by
      rw [← hc]
      apply log_eq_of_bounds
      · norm_num; exact_mod_cast h1.le
      · norm_num; exact_mod_cast h
    have hr : roundHalfEven ((1 + 8 * (s : ℝ)) / (2 : ℝ) ^ (1 : Int)) = 4 * s := by
      have ht : (1 + 8 * (s : ℝ)) / (2 : ℝ) ^ (1 : Int) = ((4 * s : Nat) : ℝ) + 1 / 2 := by
        norm_num; ring
      rw [ht]
      unfold roundHalfEven
      have hf : ⌊((4 * s : Nat) : ℝ) + 1 / 2⌋₊ = 4 * s := by
        rw [Nat.floor_eq_iff (by positivity)]
        constructor <;> push_cast <;> linarith
      simp only [hf]
      rw [if_neg (by linarith), if_neg (by linarith), if_pos (by omega)]
    rw [roundDouble_of_log hpos hlog hr]
    push_cast; norm_num; ring
  · rcases Nat.lt_or_ge (8 * s + 1) (2 ^ 55) with h' | h'
    · have hlog : Int.log 2 (1 + 8 * (s : ℝ)) = 2 + 52 := by
        rw [← hc]
        apply log_eq_of_bounds
        · norm_num; exact_mod_cast h
        · norm_num; exact_mod_cast h'
      have hr : roundHalfEven ((1 + 8 * (s : ℝ)) / (2 : ℝ) ^ (2 : Int)) = 2 * s := by
        apply roundHalfEven_near (by positivity)
        push_cast
        rw [show (1 + 8 * (s : ℝ)) / (2 : ℝ) ^ (2 : Int) - 2 * s = 1 / 4 by norm_num; ring]
        norm_num [abs_of_pos]
      rw [roundDouble_of_log hpos hlog hr]
      push_cast; norm_num; ring
    · have hlog : Int.log 2 (1 + 8 * (s : ℝ)) = 3 + 52 := by
        rw [← hc]
        apply log_eq_of_bounds
        · norm_num; exact_mod_cast h'
        · norm_num; exact_mod_cast h2
      have hr : roundHalfEven ((1 + 8 * (s : ℝ)) / (2 : ℝ) ^ (3 : Int)) = s := by
        apply roundHalfEven_near (by positivity)
        rw [show (1 + 8 * (s : ℝ)) / (2 : ℝ) ^ (3 : Int) - s = 1 / 8 by norm_num; ring]
        norm_num [abs_of_pos]
      rw [roundDouble_of_log hpos hlog hr]
      norm_num; ring

/-- The square root of a number just below an odd square rounds to the root of that square. -/
theorem roundDouble_root {M : Nat} (h1 : 2 ^ 53 < M * M) (h2 : M < 2 ^ 28) :
    roundDouble (Real.sqrt ((M : ℝ) * M - 1)) = M := by
  have h1' : (2 : ℝ) ^ 53 < (M : ℝ) * M := by exact_mod_cast h1
  have h1'' : (2 : ℝ) ^ 53 ≤ (M : ℝ) * M - 1 := by
    have : (2 : ℝ) ^ 53 + 1 ≤ (M : ℝ) * M := by exact_mod_cast h1
    linarith
  set r := Real.sqrt ((M : ℝ) * M - 1) with hr
  have hr0 : 0 ≤ r := Real.sqrt_nonneg _
  have hsq : r * r = (M : ℝ) * M - 1 := Real.mul_self_sqrt (by linarith [show (0:ℝ) < 2 ^ 53 by norm_num])
  have hMpos : (0 : ℝ) ≤ M := Nat.cast_nonneg M
  have hrM : r < M := by nlinarith
  have hM28 : (M : ℝ) < 2 ^ 28 := by exact_mod_cast h2
  -- r > 94906265 > 2 ^ 26.5 - 1
  have hrlo : (94906265 : ℝ) < r := by
    by_contra hcon
    push Not at hcon
    nlinarith
  have hpos : 0 < r := by linarith
  have hdiff : ((M : ℝ) - r) * (M + r) = 1 := by nlinarith
  by_cases h27 : r < 2 ^ 27
  · have hlog : Int.log 2 r = (-26) + 52 := by
      apply log_eq_of_bounds
      · norm_num; linarith
      · norm_num at h27 ⊢; exact h27
    have hround : roundHalfEven (r / (2 : ℝ) ^ (-26 : Int)) = M * 2 ^ 26 := by
      apply roundHalfEven_near (by positivity)
      push_cast
      rw [show r / (2 : ℝ) ^ (-26 : Int) - (M : ℝ) * 67108864 = -(((M : ℝ) - r) * 67108864) by
        rw [show ((2 : ℝ) ^ (-26 : Int)) = (67108864 : ℝ)⁻¹ by norm_num]; field_simp; ring]
      rw [abs_neg, abs_of_nonneg (by nlinarith)]
      nlinarith
    rw [roundDouble_of_log hpos hlog hround]
    push_cast
    rw [show ((2 : ℝ) ^ (-26 : Int)) = (67108864 : ℝ)⁻¹ by norm_num]
    field_simp
  · push Not at h27
    have hlog : Int.log 2 r = (-25) + 52 := by
      apply log_eq_of_bounds
      · norm_num at h27 ⊢; exact h27
      · refine lt_trans hrM (lt_of_lt_of_le hM28 ?_)
        norm_num
    have hround : roundHalfEven (r / (2 : ℝ) ^ (-25 : Int)) = M * 2 ^ 25 := by
      apply roundHalfEven_near (by positivity)
      push_cast
      rw [show r / (2 : ℝ) ^ (-25 : Int) - (M : ℝ) * 33554432 = -(((M : ℝ) - r) * 33554432) by
        rw [show ((2 : ℝ) ^ (-25 : Int)) = (33554432 : ℝ)⁻¹ by norm_num]; field_simp; ring]
      rw [abs_neg, abs_of_nonneg (by nlinarith)]
      nlinarith
    rw [roundDouble_of_log hpos hlog hround]
    push_cast
    rw [show ((2 : ℝ) ^ (-25 : Int)) = (33554432 : ℝ)⁻¹ by norm_num]
    field_simp

/-- **C58**: the number of rows inferred from the size of a lower triangle is right for every size whose
storage can be counted by a double, although `1 + 8 * size` need not be a double. -/
theorem C58_inferred_rows (b : Build) (n : Nat) (h : n * (n + 1) / 2 ≤ 2 ^ 53) :
    inferredRows b (n * (n + 1) / 2) = .ok n := by
  obtain ⟨s, hs⟩ : ∃ s, n * (n + 1) / 2 = s := ⟨_, rfl⟩
  have hn2 : n * (n + 1) = 2 * s := by
    have := Nat.div_mul_cancel (Nat.even_mul_succ_self n).two_dvd
    omega
  rw [hs] at h ⊢
  have hnlt : n < 2 ^ 27 := by
    by_contra hcon
    push Not at hcon
    have : 2 ^ 27 * (2 ^ 27 + 1) ≤ n * (n + 1) := Nat.mul_le_mul hcon (by omega)
    omega
  have hM : (2 * n + 1) * (2 * n + 1) = 8 * s + 1 := by nlinarith
  have hMr : ((2 * n + 1 : Nat) : ℝ) * ((2 * n + 1 : Nat) : ℝ) = 1 + 8 * (s : ℝ) := by
    have : (((2 * n + 1) * (2 * n + 1) : Nat) : ℝ) = ((8 * s + 1 : Nat) : ℝ) := by rw [hM]
    push_cast at this ⊢
    linarith
  have hcast : indexToDouble b (s : Int) = .ok (s : ℝ) := by
    unfold indexToDouble
    have hk : maxIntegerPrecisionIndex = 2 ^ 53 := by decide
    rw [hk, decide_eq_true (by constructor <;> omega), albatrossAssert_true, except_ok_bind,
      castToDouble_exact _ (by simpa using h)]
    simp
  have hc : roundDouble (-2 * (s : ℝ)) = -2 * s :=
    roundDouble_exact s 1 h (by rw [abs_mul]; norm_num; ring)
  have h4 : roundDouble (4 * 1) = 4 := by
    have := roundDouble_nat (n := 4) (by norm_num)
    norm_num at this ⊢
    exact this
  have h8 : roundDouble (4 * (-2 * (s : ℝ))) = -8 * s := by
    rw [show (4 : ℝ) * (-2 * s) = -8 * s by ring]
    exact roundDouble_exact s 3 h (by rw [abs_mul]; norm_num; ring)
  have hone : roundDouble (1 * 1) = 1 := by
    have := roundDouble_nat (n := 1) (by norm_num)
    norm_num at this ⊢
    exact this
  have htwo : roundDouble (2 * 1) = 2 := by
    have := roundDouble_nat (n := 2) (by norm_num)
    norm_num at this ⊢
    exact this
  have hroot : roundDouble (Real.sqrt (roundDouble (1 - -8 * (s : ℝ)))) = ((2 * n + 1 : Nat) : ℝ) := by
    rw [show (1 : ℝ) - -8 * s = 1 + 8 * s by ring]
    rcases Nat.lt_or_ge (2 ^ 53) (8 * s + 1) with hbig | hsmall
    · have hlt : 8 * s + 1 < 2 ^ 56 := by
        rw [← hM]
        have : (2 * n + 1) * (2 * n + 1) ≤ (2 ^ 28 - 1) * (2 ^ 28 - 1) :=
          Nat.mul_le_mul (by omega) (by omega)
        omega
      rw [roundDouble_disc hbig hlt]
      rw [show 8 * (s : ℝ) = ((2 * n + 1 : Nat) : ℝ) * ((2 * n + 1 : Nat) : ℝ) - 1 by rw [hMr]; ring]
      exact roundDouble_root (by omega) (by omega)
    · have he : (1 : ℝ) + 8 * s = ((8 * s + 1 : Nat) : ℝ) := by push_cast; ring
      rw [he, roundDouble_nat hsmall, ← he, ← hMr, Real.sqrt_mul_self (Nat.cast_nonneg _)]
      exact roundDouble_nat (by omega)
  have hsub : roundDouble (((2 * n + 1 : Nat) : ℝ) - 1) = ((2 * n : Nat) : ℝ) := by
    rw [show ((2 * n + 1 : Nat) : ℝ) - 1 = ((2 * n : Nat) : ℝ) by push_cast; ring]
    exact roundDouble_nat (by omega)
  have hdiv : roundDouble (((2 * n : Nat) : ℝ) / 2) = n := by
    rw [show ((2 * n : Nat) : ℝ) / 2 = (n : ℝ) by push_cast; ring]
    exact roundDouble_nat (by omega)
  have hfloor : ⌊(n : ℝ) + 1 / 2⌋₊ = n := by
    rw [Nat.floor_eq_iff (by positivity)]
    constructor <;> linarith
  unfold inferredRows
  rw [hcast, except_ok_bind]
  simp only [hc, h4, h8, hone, htwo, hroot, hsub, hdiv, hfloor, sub_self, decide_true,
    albatrossAssert_true, except_ok_bind]
  rfl

/-! ### Lower triangles -/

theorem at_ok {α : Type} (b : Build) {m : Stored α} (hm : m.Valid) {i j : Nat} (hi : i < m.rows)
    (hj : j < m.cols) : ∃ x, m.at b i j = .ok x := by
  have hlt : j * m.rows + i < m.data.length := by
    rw [hm]
    calc j * m.rows + i < j * m.rows + m.rows := by omega
      _ = (j + 1) * m.rows := by ring
      _ ≤ m.cols * m.rows := Nat.mul_le_mul_right _ hj
      _ = m.rows * m.cols := Nat.mul_comm _ _
  exact ⟨_, by unfold Stored.at; rw [decide_eq_true ⟨hi, hj⟩, eigenAssert_true, except_ok_bind, vecGet_lt hlt]⟩

theorem at_ofEntries {α : Type} (b : Build) {rows cols : Nat} (f : Nat → Nat → α) {i j : Nat} (hi : i < rows)
    (hj : j < cols) : (Stored.ofEntries rows cols f).at b i j = .ok (f i j) := by
  have hlt : j * rows + i < rows * cols := by
    calc j * rows + i < j * rows + rows := by omega
      _ = (j + 1) * rows := by ring
      _ ≤ cols * rows := Nat.mul_le_mul_right _ hj
      _ = rows * cols := Nat.mul_comm _ _
  unfold Stored.at Stored.ofEntries
  simp only
  rw [decide_eq_true ⟨hi, hj⟩, eigenAssert_true, except_ok_bind, vecGet_ok, List.getElem?_map,
    List.getElem?_range hlt]
  simp only [Option.map_some, Option.some.injEq]
  rw [Nat.add_comm, Nat.add_mul_mod_self_right, Nat.mod_eq_of_lt hi,
    Nat.add_mul_div_right _ _ (by omega), Nat.div_eq_of_lt hi, Nat.zero_add]

theorem mapM_exists {α β : Type} (f : α → Outcome β) (xs : List α) (h : ∀ x ∈ xs, ∃ y, f x = .ok y) :
    ∃ ys, xs.mapM f = .ok ys := by
  induction xs with
  | nil => exact ⟨[], rfl⟩
  | cons x xs ih =>
    obtain ⟨y, hy⟩ := h x (by simp)
    obtain ⟨ys, hys⟩ := ih fun x hx => h x (by simp [hx])
    exact ⟨y :: ys, by rw [List.mapM_cons, hy, except_ok_bind, hys, except_ok_bind]; rfl⟩

theorem readLower_flatten {α : Type} (b : Build) (lines : List (List α)) (i : Nat)
    (h : ∀ k (hk : k < lines.length), lines[k].length = i + k + 1) :
    readLower b lines.length i lines.flatten = .ok lines := by
  induction lines generalizing i with
  | nil => rfl
  | cons l ls ih =>
    have hl : l.length = i + 1 := h 0 (by simp)
    rw [List.length_cons, readLower, List.flatten_cons,
      decide_eq_true (by rw [List.length_append]; omega), eigenAssert_true, except_ok_bind]
    have h1 : (l ++ ls.flatten).drop (i + 1) = ls.flatten := by rw [← hl, List.drop_left]
    have h2 : (l ++ ls.flatten).take (i + 1) = l := by rw [← hl, List.take_left]
    rw [h1, h2, ih (i + 1) fun k hk => by
      have := h (k + 1) (by simpa using hk)
      rw [List.getElem_cons_succ] at this
      omega]
    rfl

theorem two_mul_flatten_length {α : Type} (lines : List (List α)) (i : Nat)
    (h : ∀ k (hk : k < lines.length), lines[k].length = i + k + 1) :
    2 * lines.flatten.length = lines.length * (lines.length + 1 + 2 * i) := by
  induction lines generalizing i with
  | nil => simp
  | cons l ls ih =>
    have hl : l.length = i + 1 := h 0 (by simp)
    have := ih (i + 1) fun k hk => by
      have := h (k + 1) (by simpa using hk)
      rw [List.getElem_cons_succ] at this
      omega
    rw [List.flatten_cons, List.length_append, hl, List.length_cons, Nat.mul_add, this]
    ring

/-- What `save_lower_triangle` puts in its vector. -/
theorem lowerTriangleData_spec {α : Type} (b : Build) {v : Stored α} (hv : v.Valid) (hsq : v.rows ≤ v.cols) :
    ∃ lines : List (List α), lowerTriangleData b v = .ok lines.flatten ∧ lines.length = v.rows ∧
      (∀ k (hk : k < lines.length), lines[k].length = k + 1) ∧
      (∀ i j (hi : i < lines.length) (hj : j < lines[i].length), v.at b i j = .ok lines[i][j]) := by
  obtain ⟨lines, hlines⟩ := mapM_exists
    (fun i => (List.range (i + 1)).mapM fun j => v.at b i j) (List.range v.rows) (by
      intro i hi
      rw [List.mem_range] at hi
      exact mapM_exists _ _ fun j hj => at_ok b hv hi (by rw [List.mem_range] at hj; omega))
  refine ⟨lines, ?_, ?_, ?_, ?_⟩
  · unfold lowerTriangleData
    rw [hlines, except_ok_bind]
    rfl
  all_goals
    have hl := hlines
    rw [mapM_ok_iff] at hl
    have hlen := congrArg List.length hl
    simp only [List.length_map, List.length_range] at hlen
  · exact hlen.symm
  all_goals
    have hrow : ∀ i (hi : i < lines.length),
        (List.range (i + 1)).map (fun j => v.at b i j) = lines[i].map Except.ok := by
      intro i hi
      have h := congrArg (fun l => l[i]?) hl
      simp only [List.getElem?_map] at h
      rw [List.getElem?_range (by omega), List.getElem?_eq_getElem hi] at h
      simp only [Option.map_some, Option.some.injEq] at h
      rwa [mapM_ok_iff] at h
  · intro k hk
    have := congrArg List.length (hrow k hk)
    simpa using this.symm
  · intro i j hi hj
    have hlen' := congrArg List.length (hrow i hi)
    simp only [List.length_map, List.length_range] at hlen'
    have h := congrArg (fun l => l[j]?) (hrow i hi)
    simp only [List.getElem?_map] at h
    rw [List.getElem?_range (by omega), List.getElem?_eq_getElem hj] at h
    simpa using h

/-- **C58**: the lower triangle of a square matrix survives saving and loading: the size is restored and so is
every entry on or below the diagonal, through text and binary archives, for every size whose storage can be
counted by a double. -/
theorem C58_lower_triangle {α : Type} {z : Zstd} (hz : z.Contract) (gzip : Codec) {base64 : Codec}
    (h64 : base64.Contract) {s : ScalarRep α} (hs : s.Contract) (b : Build) (text : Bool) (uninitBytes : Bytes)
    (uninit : Nat → Nat → α) (v : Stored α) (hv : v.Valid) (hsq : v.rows = v.cols)
    (hsize : v.rows * (v.rows + 1) / 2 ≤ 2 ^ 53)
    (hfit : s.width * (v.rows * (v.rows + 1) / 2) ≤ stringMaxSize)
    (hu : uninitBytes.length = s.width * (v.rows * (v.rows + 1) / 2)) :
    ∃ ar w, saveLowerTriangle b z base64 s text v = .ok ar ∧
      loadLowerTriangle b z gzip base64 s text uninitBytes uninit ar = .ok w ∧
      w.rows = v.rows ∧ w.cols = v.cols ∧
      ∀ i j, i < v.rows → j ≤ i → w.at b i j = v.at b i j := by
  obtain ⟨lines, hdata, hlen, hl, hat⟩ := lowerTriangleData_spec b hv hsq.le
  have hflat : lines.flatten.length = v.rows * (v.rows + 1) / 2 := by
    have := two_mul_flatten_length lines 0 (by simpa using hl)
    rw [hlen] at this
    simp only [Nat.mul_zero, Nat.add_zero] at this
    omega
  have hload := C58_dense hz gzip h64 hs b text uninitBytes ⟨lines.flatten.length, 1, lines.flatten⟩
    (by simp [Stored.Valid]) (by simpa [hflat] using hfit) (by simpa [hflat] using hu)
  refine ⟨saveDense z base64 s text ⟨lines.flatten.length, 1, lines.flatten⟩,
    Stored.ofEntries v.rows v.rows fun i j =>
      if j ≤ i then (lines.getD i []).getD j (uninit i j) else uninit i j, ?_, ?_, rfl, hsq, ?_⟩
  · unfold saveLowerTriangle
    rw [hdata, except_ok_bind]
    rfl
  · unfold loadLowerTriangle
    rw [hload, except_ok_bind]
    unfold fillLowerTriangle
    simp only
    rw [hflat, C58_inferred_rows b _ hsize, except_ok_bind]
    have hr := readLower_flatten b lines 0 (by simpa using hl)
    rw [hlen] at hr
    rw [hr, except_ok_bind]
    rfl
  · intro i j hi hj
    rw [at_ofEntries b _ hi (by omega), if_pos hj]
    have hi' : i < lines.length := by omega
    have hj' : j < lines[i].length := by rw [hl i hi']; omega
    rw [hat i j hi' hj', List.getD_eq_getElem?_getD, List.getD_eq_getElem?_getD,
      List.getElem?_eq_getElem hi', Option.getD_some, List.getElem?_eq_getElem hj', Option.getD_some]

/-- A one byte scalar and the codecs that do nothing, for the examples. -/
def byteRep : ScalarRep UInt8 where
  width := 1
  bytes x := [x]
  ofBytes s := s.headD 0

theorem byteRep_contract : byteRep.Contract where
  pos := by simp [byteRep]
  length := by intro x; rfl
  round_trip := by intro x; rfl

example : loadDense .debug storedZstd ⟨id, id⟩ ⟨id, id⟩ byteRep true (List.replicate 6 9)
    (saveDense storedZstd ⟨id, id⟩ byteRep true ⟨2, 3, [1, 2, 3, 4, 5, 6]⟩) =
      .ok ⟨2, 3, [1, 2, 3, 4, 5, 6]⟩ :=
  C58_dense storedZstd_contract _ (fun _ => rfl) byteRep_contract _ _ _ _ rfl
    (by unfold stringMaxSize byteRep; norm_num) rfl

example : ∃ ar w, saveLowerTriangle .debug storedZstd ⟨id, id⟩ byteRep false ⟨2, 2, [1, 2, 3, 4]⟩ = .ok ar ∧
      loadLowerTriangle .debug storedZstd ⟨id, id⟩ ⟨id, id⟩ byteRep false [9, 9, 9] (fun _ _ => 5) ar = .ok w ∧
      w.rows = 2 ∧ w.cols = 2 ∧
      ∀ i j, i < 2 → j ≤ i → w.at .debug i j = Stored.at .debug ⟨2, 2, [1, 2, 3, 4]⟩ i j :=
  C58_lower_triangle storedZstd_contract _ (fun _ => rfl) byteRep_contract _ _ _ _ _ rfl rfl (by norm_num)
    (by unfold stringMaxSize byteRep; norm_num) rfl

/-! ## C57: sparse matrices -/

/-- The sum of the values stored for a position. -/
noncomputable def sumAt (es : List (Nat × Nat × ℝ)) (i j : Nat) : ℝ :=
  (es.map fun e => if e.1 = i ∧ e.2.1 = j then e.2.2 else 0).sum

/-- The two words of a triplet as `save` writes them. -/
def savedWords (e : Nat × Nat × ℝ) : List Word := [Word.index e.2.1 e.1, Word.value e.2.2]

/-- A stored entry of the transposed matrix. -/
def transposed (e : Nat × Nat × ℝ) : Nat × Nat × ℝ := (e.2.1, e.1, e.2.2)

theorem readTriplets_nil (n : Nat) : readTriplets n [] = List.replicate n (0, 0, 0) := by
  induction n with
  | zero => rfl
  | succ n ih => rw [readTriplets, ih] <;> first | rfl | simp

theorem sumAt_zeros (n i j : Nat) : sumAt (List.replicate n (0, 0, 0)) i j = 0 := by
  unfold sumAt
  induction n with
  | zero => simp
  | succ n ih => rw [List.replicate_succ, List.map_cons, List.sum_cons, ih]; simp

theorem sumAt_cons (e : Nat × Nat × ℝ) (es : List (Nat × Nat × ℝ)) (i j : Nat) :
    sumAt (e :: es) i j = (if e.1 = i ∧ e.2.1 = j then e.2.2 else 0) + sumAt es i j := by
  unfold sumAt
  rw [List.map_cons, List.sum_cons]

/-- Of `n` saved words only the first `n / 2` triplets come back with their values. -/
theorem sumAt_readTriplets (es : List (Nat × Nat × ℝ)) (N n : Nat) (hn : n / 2 ≤ N) (i j : Nat) :
    sumAt (readTriplets N ((es.flatMap savedWords).take n)) i j = sumAt ((es.take (n / 2)).map transposed) i j := by
  induction es generalizing N n with
  | nil => simp [readTriplets_nil, sumAt_zeros]; simp [sumAt]
  | cons e es ih =>
    rw [List.flatMap_cons]
    match n with
    | 0 => simp [readTriplets_nil, sumAt_zeros]; simp [sumAt]
    | 1 =>
      match N with
      | 0 => simp [readTriplets, sumAt]
      | N + 1 =>
        have : (savedWords e ++ es.flatMap savedWords).take 1 = [Word.index e.2.1 e.1] := rfl
        rw [this, readTriplets, sumAt_cons, readTriplets_nil, sumAt_zeros]
        simp [sumAt]
    | n + 2 =>
      match N with
      | 0 => omega
      | N + 1 =>
        have h1 : (savedWords e ++ es.flatMap savedWords).take (n + 2) =
          Word.index e.2.1 e.1 :: Word.value e.2.2 :: (es.flatMap savedWords).take n := rfl
        rw [h1, readTriplets, sumAt_cons, ih N n (by omega),
          show (n + 2) / 2 = n / 2 + 1 by omega, List.take_succ_cons, List.map_cons, sumAt_cons]
        rfl

theorem mem_readTriplets (es : List (Nat × Nat × ℝ)) (N n : Nat) (t : Nat × Nat × ℝ)
    (h : t ∈ readTriplets N ((es.flatMap savedWords).take n)) :
    (t.1 = 0 ∧ t.2.1 = 0) ∨ ∃ e ∈ es, t.1 = e.2.1 ∧ t.2.1 = e.1 := by
  induction es generalizing N n with
  | nil =>
    simp only [List.flatMap_nil, List.take_nil, readTriplets_nil] at h
    have := List.eq_of_mem_replicate h
    exact Or.inl (by simp [this])
  | cons e es ih =>
    rw [List.flatMap_cons] at h
    match n with
    | 0 =>
      rw [List.take_zero, readTriplets_nil] at h
      have := List.eq_of_mem_replicate h
      exact Or.inl (by simp [this])
    | 1 =>
      match N with
      | 0 => simp [readTriplets] at h
      | N + 1 =>
        have h1 : (savedWords e ++ es.flatMap savedWords).take 1 = [Word.index e.2.1 e.1] := rfl
        rw [h1, readTriplets, readTriplets_nil, List.mem_cons] at h
        rcases h with h | h
        · exact Or.inr ⟨e, by simp, by simp [h]⟩
        · have := List.eq_of_mem_replicate h
          exact Or.inl (by simp [this])
    | n + 2 =>
      match N with
      | 0 => simp [readTriplets] at h
      | N + 1 =>
        have h1 : (savedWords e ++ es.flatMap savedWords).take (n + 2) =
          Word.index e.2.1 e.1 :: Word.value e.2.2 :: (es.flatMap savedWords).take n := rfl
        rw [h1, readTriplets, List.mem_cons] at h
        rcases h with h | h
        · exact Or.inr ⟨e, by simp, by simp [h]⟩
        · rcases ih N n h with h | ⟨e', he', h⟩
          · exact Or.inl h
          · exact Or.inr ⟨e', by simp [he'], h⟩

theorem saveSparse_payload_length (m : SparseMat) : (saveSparse m).payload.length = m.entries.length := by
  unfold saveSparse
  simp only [List.length_take, List.length_flatMap]
  have : (m.entries.map fun e => [Word.index e.2.1 e.1, Word.value e.2.2].length).sum = 2 * m.entries.length := by
    simp; ring
  rw [this]
  omega

/-- The matrices `load` can return. -/
theorem loadSparse_entry (b : Build) (m w : SparseMat) (h : loadSparse b (saveSparse m) = .ok w) :
    w.rows = m.rows ∧ w.cols = m.cols ∧
    ∀ i j, w.entry i j = sumAt ((m.entries.take (m.entries.length / 2)).map transposed) i j := by
  unfold loadSparse at h
  have hn : (saveSparse m).nnz = m.entries.length := rfl
  rw [saveSparse_payload_length, hn, decide_eq_true rfl, albatrossAssert_true, except_ok_bind] at h
  by_cases h0 : m.entries.length = 0
  · rw [if_pos h0] at h
    have h := Except.ok.inj h
    subst h
    refine ⟨rfl, rfl, fun i j => ?_⟩
    rw [h0]
    simp [SparseMat.entry, sumAt]
  · rw [if_neg h0] at h
    obtain ⟨_, _, h⟩ := except_bind_eq_ok.1 h
    have h := Except.ok.inj h
    subst h
    exact ⟨rfl, rfl, fun i j => sumAt_readTriplets m.entries m.entries.length m.entries.length (by omega) i j⟩

/-- **C57**: what is loaded for a square sparse matrix is the transpose of the first half of its stored
entries; the other half is gone. -/
theorem C57_square_loaded (b : Build) (m : SparseMat) (hsq : m.rows = m.cols)
    (hin : ∀ e ∈ m.entries, e.1 < m.rows ∧ e.2.1 < m.cols) :
    ∃ w, loadSparse b (saveSparse m) = .ok w ∧ w.rows = m.rows ∧ w.cols = m.cols ∧
      ∀ i j, w.entry i j =
        SparseMat.entry ⟨m.rows, m.cols, m.entries.take (m.entries.length / 2)⟩ j i := by
  have hload : ∃ w, loadSparse b (saveSparse m) = .ok w := by
    unfold loadSparse
    have hn : (saveSparse m).nnz = m.entries.length := rfl
    rw [saveSparse_payload_length, hn, decide_eq_true rfl, albatrossAssert_true, except_ok_bind]
    by_cases h0 : m.entries.length = 0
    · exact ⟨_, by rw [if_pos h0]; rfl⟩
    · rw [if_neg h0]
      refine ⟨⟨m.rows, m.cols, readTriplets m.entries.length (saveSparse m).payload⟩, ?_⟩
      have hall : ∀ (ts : List (Nat × Nat × ℝ)), (∀ t ∈ ts, t.1 < m.rows ∧ t.2.1 < m.cols) →
          ts.forM (fun t => eigenAssert b (decide (t.1 < (saveSparse m).rows ∧ t.2.1 < (saveSparse m).cols))) =
            (.ok () : Outcome Unit) := by
        intro ts hts
        induction ts with
        | nil => rfl
        | cons t ts ih =>
          rw [List.forM_eq_forM, List.forM_cons,
            decide_eq_true (show t.1 < (saveSparse m).rows ∧ t.2.1 < (saveSparse m).cols from hts t (by simp)),
            eigenAssert_true, except_ok_bind]
          exact ih fun t ht => hts t (by simp [ht])
      simp only
      rw [hall _ fun t ht => ?_]
      · rfl
      · obtain ⟨e, he⟩ : ∃ e, e ∈ m.entries := by
          cases hm : m.entries with
          | nil => rw [hm] at h0; simp at h0
          | cons e es => exact ⟨e, by simp⟩
        rcases mem_readTriplets m.entries m.entries.length m.entries.length t ht with h | ⟨e', he', h⟩
        · have := hin e he
          omega
        · have := hin e' he'
          omega
  obtain ⟨w, hw⟩ := hload
  obtain ⟨h1, h2, h3⟩ := loadSparse_entry b m w hw
  refine ⟨w, hw, h1, h2, fun i j => ?_⟩
  rw [h3 i j]
  unfold sumAt SparseMat.entry
  rw [List.map_map]
  congr 1
  apply List.map_congr_left
  intro e _
  simp only [Function.comp, transposed, and_comm]

theorem sumAt_of_mem {es : List (Nat × Nat × ℝ)} (hnd : (es.map fun e => (e.1, e.2.1)).Nodup)
    {e : Nat × Nat × ℝ} (he : e ∈ es) : sumAt es e.1 e.2.1 = e.2.2 := by
  induction es with
  | nil => simp at he
  | cons a es ih =>
    rw [sumAt_cons]
    rw [List.map_cons, List.nodup_cons] at hnd
    rcases List.mem_cons.1 he with h | h
    · subst h
      rw [if_pos ⟨rfl, rfl⟩]
      have : sumAt es e.1 e.2.1 = 0 := by
        unfold sumAt
        apply List.sum_eq_zero
        intro x hx
        obtain ⟨a, ha, rfl⟩ := List.mem_map.1 hx
        rw [if_neg]
        rintro ⟨h1, h2⟩
        exact hnd.1 (List.mem_map.2 ⟨a, ha, by rw [h1, h2]⟩)
      rw [this, add_zero]
    · rw [if_neg, zero_add, ih hnd.2 h]
      rintro ⟨h1, h2⟩
      exact hnd.1 (List.mem_map.2 ⟨e, h, by rw [h1, h2]⟩)

theorem mem_of_sumAt_ne_zero {es : List (Nat × Nat × ℝ)} {i j : Nat} (h : sumAt es i j ≠ 0) :
    (i, j) ∈ es.map fun e => (e.1, e.2.1) := by
  by_contra hcon
  apply h
  unfold sumAt
  apply List.sum_eq_zero
  intro x hx
  obtain ⟨a, ha, rfl⟩ := List.mem_map.1 hx
  rw [if_neg]
  rintro ⟨h1, h2⟩
  exact hcon (List.mem_map.2 ⟨a, ha, by rw [h1, h2]⟩)

/-- **C57 is false** for every sparse matrix that stores anything: whatever is loaded differs from what was
saved.  (`size_bytes` counts scalars rather than triplets, so half of the triplets are lost, and the indices
are exchanged.) -/
theorem C57_lost (b : Build) (m w : SparseMat) (hne : m.entries ≠ [])
    (hnd : (m.entries.map fun e => (e.1, e.2.1)).Nodup) (hnz : ∀ e ∈ m.entries, e.2.2 ≠ 0)
    (hload : loadSparse b (saveSparse m) = .ok w) : ∃ i j, w.entry i j ≠ m.entry i j := by
  by_contra hcon
  push Not at hcon
  obtain ⟨-, -, h3⟩ := loadSparse_entry b m w hload
  have hsub : (m.entries.map fun e => (e.1, e.2.1)).toFinset ⊆
      (((m.entries.take (m.entries.length / 2)).map transposed).map fun e => (e.1, e.2.1)).toFinset := by
    intro p hp
    rw [List.mem_toFinset] at hp ⊢
    obtain ⟨e, he, rfl⟩ := List.mem_map.1 hp
    apply mem_of_sumAt_ne_zero
    rw [← h3, hcon]
    show sumAt m.entries e.1 e.2.1 ≠ 0
    rw [sumAt_of_mem hnd he]
    exact hnz e he
  have h1 := Finset.card_le_card hsub
  rw [List.toFinset_card_of_nodup hnd] at h1
  have h2 := List.toFinset_card_le
    (((m.entries.take (m.entries.length / 2)).map transposed).map fun e => (e.1, e.2.1))
  simp only [List.length_map, List.length_take] at h1 h2
  have : 0 < m.entries.length := List.length_pos_of_ne_nil hne
  omega

/-- The claim of C57: saving and loading restores the matrix. -/
def SparseRoundTrip (b : Build) : Prop :=
  ∀ m : SparseMat, (∀ e ∈ m.entries, e.1 < m.rows ∧ e.2.1 < m.cols) →
    ∃ w, loadSparse b (saveSparse m) = .ok w ∧ w.rows = m.rows ∧ w.cols = m.cols ∧
      ∀ i j, w.entry i j = m.entry i j

/-- **C57 is false**: the 1 × 1 matrix with entry 5 does not survive. -/
theorem C57_round_trip_false (b : Build) : ¬ SparseRoundTrip b := by
  intro h
  obtain ⟨w, hw, -, -, he⟩ := h ⟨1, 1, [(0, 0, 5)]⟩ (by simp)
  obtain ⟨i, j, hij⟩ := C57_lost b ⟨1, 1, [(0, 0, 5)]⟩ w (by simp) (by simp) (by simp) hw
  exact hij (he i j)

/-- **C57**: a rectangular matrix need not load at all: the exchanged indices of the 1 × 2 matrix with an
entry in its second column are out of range. -/
theorem C57_rectangular (b : Build) :
    loadSparse b (saveSparse ⟨1, 2, [(0, 1, 5)]⟩) =
      .error (match b with | .debug => .assertFail | .ndebug => .ub) := by
  cases b <;> rfl

/-- **C57**, the case in which it holds: sparse matrices without stored entries keep their shape. -/
theorem C57_empty_partial (b : Build) (rows cols : Nat) :
    loadSparse b (saveSparse ⟨rows, cols, []⟩) = .ok ⟨rows, cols, []⟩ := by
  cases b <;> rfl

example : ∃ w, loadSparse .debug (saveSparse ⟨2, 2, [(0, 0, 1), (1, 0, 2), (1, 1, 3)]⟩) = .ok w ∧
    w.entry 0 0 = 1 ∧ w.entry 0 1 = 0 ∧ w.entry 1 0 = 0 ∧ w.entry 1 1 = 0 := by
  obtain ⟨w, hw, -, -, h⟩ := C57_square_loaded .debug ⟨2, 2, [(0, 0, 1), (1, 0, 2), (1, 1, 3)]⟩ rfl (by simp)
  refine ⟨w, hw, ?_, ?_, ?_, ?_⟩ <;> rw [h] <;> simp [SparseMat.entry]

end Albatross
