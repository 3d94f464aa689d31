import Verif.Model.SetVector

/-! Round trips of the neighbor list codec. -/
namespace Granne

theorem vbCode_lt (n : Nat) : vbCode n < 4 := by unfold vbCode; split_ifs <;> omega

theorem lt_vbCode {n : Nat} (h : n < 2 ^ 32) : n < 256 ^ (vbCode n + 1) := by
  unfold vbCode
  split_ifs <;> omega

theorem vbUnpack_ofNat {a b c d : Nat} (ha : a < 4) (hb : b < 4) (hc : c < 4) (hd : d < 4) :
    vbUnpack (UInt8.ofNat (a + 4 * b + 16 * c + 64 * d)) = [a, b, c, d] := by
  have h : (UInt8.ofNat (a + 4 * b + 16 * c + 64 * d)).toNat = a + 4 * b + 16 * c + 64 * d := by
    simp; omega
  simp only [vbUnpack, h, List.cons.injEq, and_true]
  omega

theorem vbControls_spec (nums : List Nat) :
    (vbControls nums).length = (nums.length + 3) / 4 ∧
    ((vbControls nums).flatMap vbUnpack).take nums.length = nums.map vbCode := by
  induction nums using vbControls.induct with
  | case1 => simp [vbControls]
  | case2 a =>
    have := vbUnpack_ofNat (vbCode_lt a) (show 0 < 4 by omega) (show 0 < 4 by omega) (show 0 < 4 by omega)
    simp only [Nat.mul_zero, Nat.add_zero] at this
    simp [vbControls, this]
  | case3 a b =>
    have := vbUnpack_ofNat (vbCode_lt a) (vbCode_lt b) (show 0 < 4 by omega) (show 0 < 4 by omega)
    simp only [Nat.mul_zero, Nat.add_zero] at this
    refine ⟨by simp [vbControls], ?_⟩
    rw [vbControls, List.flatMap_cons, this]; simp
  | case4 a b c =>
    have := vbUnpack_ofNat (vbCode_lt a) (vbCode_lt b) (vbCode_lt c) (show 0 < 4 by omega)
    simp only [Nat.mul_zero, Nat.add_zero] at this
    refine ⟨by simp [vbControls], ?_⟩
    rw [vbControls, List.flatMap_cons, this]; simp
  | case5 a b c d t ih =>
    have := vbUnpack_ofNat (vbCode_lt a) (vbCode_lt b) (vbCode_lt c) (vbCode_lt d)
    rw [vbControls]
    refine ⟨by simp [ih.1]; omega, ?_⟩
    simp only [List.flatMap_cons, this, List.length_cons, List.cons_append, List.nil_append,
      List.take_succ_cons, List.map_cons]
    rw [ih.2]

theorem vbRead_data (nums : List Nat) (h : ∀ n ∈ nums, n < 2 ^ 32) (rest : Bytes) :
    vbRead (nums.map vbCode) ((nums.flatMap fun n => leBytes (vbCode n + 1) n) ++ rest) = some nums := by
  induction nums with
  | nil => rfl
  | cons n t ih =>
    rw [List.map_cons, vbRead, List.flatMap_cons, List.append_assoc, if_pos (by simp)]
    have h1 : (leBytes (vbCode n + 1) n).length = vbCode n + 1 := leBytes_length _ _
    rw [List.drop_left' h1, List.take_left' h1, ih fun m hm => h m (by simp [hm]),
      leNat_leBytes_of_lt (lt_vbCode (h n (by simp)))]
    rfl

/-- Stream VByte round trip. -/
theorem vbDecode_encode (nums : List Nat) (h : ∀ n ∈ nums, n < 2 ^ 32) :
    vbDecode (vbEncode nums) nums.length = some nums := by
  obtain ⟨h1, h2⟩ := vbControls_spec nums
  unfold vbDecode vbEncode
  simp only
  rw [← h1, if_pos (by simp), List.take_left' rfl, List.drop_left' rfl, h2]
  have := vbRead_data nums h []
  rwa [List.append_nil] at this

theorem vbEncode_length_le (nums : List Nat) : (vbEncode nums).length ≤ (nums.length + 3) / 4 + 4 * nums.length := by
  have h : (nums.flatMap fun n => leBytes (vbCode n + 1) n).length ≤ 4 * nums.length := by
    induction nums with
    | nil => simp
    | cons n t ih =>
      have := vbCode_lt n
      simp only [List.flatMap_cons, List.length_append, leBytes_length, List.length_cons]
      omega
  rw [vbEncode, List.length_append, (vbControls_spec nums).1]
  omega

theorem deltaEncodeFrom_length (p : Nat) (l : List Nat) : (deltaEncodeFrom p l).length = l.length := by
  induction l generalizing p with
  | nil => rfl
  | cons x t ih => simp [deltaEncodeFrom, ih]

theorem deltaEncodeFrom_lt {p : Nat} {l : List Nat} (h : ∀ n ∈ l, n < 2 ^ 32) :
    ∀ n ∈ deltaEncodeFrom p l, n < 2 ^ 32 := by
  induction l generalizing p with
  | nil => simp [deltaEncodeFrom]
  | cons x t ih =>
    intro n hn
    rw [deltaEncodeFrom] at hn
    rcases List.mem_cons.1 hn with rfl | hn
    · have := h x (by simp); omega
    · exact ih (fun m hm => h m (by simp [hm])) n hn

theorem deltaDecode_encode {p : Nat} {l : List Nat} (hs : (p :: l).Pairwise (· ≤ ·)) (h : ∀ n ∈ l, n < 2 ^ 32) :
    deltaDecodeFrom p (deltaEncodeFrom p l) = l := by
  induction l generalizing p with
  | nil => rfl
  | cons x t ih =>
    have hpx : p ≤ x := (List.pairwise_cons.1 hs).1 x (by simp)
    have hx := h x (by simp)
    have he : (p + (x - p)) % 2 ^ 32 = x := by rw [Nat.mod_eq_of_lt (by omega)]; omega
    rw [deltaEncodeFrom, deltaDecodeFrom, he, ih (List.pairwise_cons.1 hs).2 fun m hm => h m (by simp [hm])]

theorem readRaw_flatMap (l : List Nat) (h : ∀ n ∈ l, n < 2 ^ 32) (rest : Bytes) :
    readRaw l.length (l.flatMap (leBytes 4) ++ rest) = l := by
  induction l with
  | nil => rfl
  | cons x t ih =>
    rw [List.length_cons, readRaw, List.flatMap_cons, List.append_assoc, List.take_left' (by simp),
      List.drop_left' (by simp), ih fun m hm => h m (by simp [hm]), leNat_leBytes_of_lt (by
        have := h x (by simp); omega)]

theorem flatMap_leBytes_length (k : Nat) (l : List Nat) : (l.flatMap (leBytes k)).length = k * l.length := by
  induction l with
  | nil => simp
  | cons x t ih => simp [ih]; ring

theorem setEncode_length_le (l : List Nat) : (setEncode l).length ≤ 1 + 4 * min l.length 255 := by
  unfold setEncode
  simp only
  have hlen : (if l.length ≥ 255 then l.take 255 else l).length = min l.length 255 := by
    split <;> simp <;> omega
  generalize (if l.length ≥ 255 then l.take 255 else l) = l' at *
  rw [List.length_cons]
  split
  · rw [flatMap_leBytes_length, deltaEncodeFrom_length]; omega
  · next h =>
    have := deltaEncodeFrom_length 0 l'
    omega

theorem setEncode_ne_nil (l : List Nat) : setEncode l ≠ [] := by simp [setEncode]

/-- Codec round trip: the first 255 of sorted numbers. -/
theorem decode_setEncode {l : List Nat} (hs : l.Pairwise (· ≤ ·)) (h : ∀ n ∈ l, n < 2 ^ 32) :
    decodeInto (setEncode l) = some (l.take 255) := by
  have hcut : (if l.length ≥ 255 then l.take 255 else l) = l.take 255 := by
    split
    · rfl
    · rw [List.take_of_length_le (by omega)]
  unfold setEncode
  simp only [hcut]
  have hs' : (0 :: l.take 255).Pairwise (· ≤ ·) := by
    refine List.pairwise_cons.2 ⟨by simp, hs.sublist (List.take_sublist _ _)⟩
  have h' : ∀ n ∈ l.take 255, n < 2 ^ 32 := fun n hn => h n (List.mem_of_mem_take hn)
  have hlen : (deltaEncodeFrom 0 (l.take 255)).length ≤ 255 := by
    rw [deltaEncodeFrom_length]; simp
  have hd := deltaEncodeFrom_lt (p := 0) h'
  have hdd := deltaDecode_encode hs' h'
  generalize deltaEncodeFrom 0 (l.take 255) = ds at *
  have hc : (UInt8.ofNat ds.length).toNat = ds.length := by simp; omega
  rw [decodeInto]
  simp only [hc]
  by_cases h1 : (vbEncode (ds ++ List.replicate (4 - ds.length) 0)).length ≥ 4 * ds.length
  · rw [if_pos h1, if_neg (by rw [flatMap_leBytes_length]; simp)]
    have := readRaw_flatMap ds hd []
    rw [List.append_nil] at this
    rw [this, hdd]
  · rw [if_neg h1, if_pos (by omega)]
    have hmax : max 4 ds.length = (ds ++ List.replicate (4 - ds.length) 0).length := by simp; omega
    rw [hmax, vbDecode_encode _ (by
      intro n hn
      rcases List.mem_append.1 hn with hn | hn
      · exact hd n hn
      · rw [List.eq_of_mem_replicate hn]; omega)]
    simp only [Option.map_some]
    rw [List.take_left' rfl, hdd]

end Granne
