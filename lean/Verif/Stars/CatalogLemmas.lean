import Verif.Stars.Catalog
/-! Helper lemmas for star catalogue files. -/
set_option linter.unusedSimpArgs false
namespace Huira.Stars

theorem leBytes_length : ∀ k n, (leBytes k n).length = k
  | 0, _ => rfl
  | k + 1, n => by simp [leBytes, leBytes_length k]

theorem ofLe_leBytes : ∀ k n, n < 256 ^ k → ofLeBytes (leBytes k n) = n
  | 0, n, h => by simp at h; subst h; rfl
  | k + 1, n, h => by
    have : n / 256 < 256 ^ k := by
      rw [Nat.pow_succ] at h
      exact Nat.div_lt_of_lt_mul (by rw [Nat.mul_comm]; exact h)
    simp only [leBytes, ofLeBytes, ofLe_leBytes k _ this]
    have : (UInt8.ofNat (n % 256)).toNat = n % 256 := by
      simp [UInt8.toNat_ofNat']
    rw [this]; omega

theorem headerBytes_length (t : Byte) (n : Nat) : (headerBytes t n).length = 32 := by
  simp [headerBytes, leBytes_length]

variable {Star K : Type} [LinearOrder K]

theorem flatten_len (c : Codec Star) (l : List Star) : ((l.map c.enc).flatten).length = l.length * c.size := by
  induction l with
  | nil => simp
  | cons a l ih =>
    simp only [List.map_cons, List.flatten_cons, List.length_append, ih, c.enc_len, List.length_cons]
    rw [Nat.succ_mul]; omega

theorem records_flatten (c : Codec Star) : ∀ (l : List Star) (k : Nat) (rest : List Byte), k ≤ l.length →
    records c k ((l.map c.enc).flatten ++ rest) = l.take k
  | _, 0, _, _ => by simp [records]
  | [], k + 1, _, h => by simp at h
  | a :: l, k + 1, rest, h => by
    simp only [List.map_cons, List.flatten_cons, records, List.take_succ_cons]
    have h1 : (c.enc a ++ (l.map c.enc).flatten ++ rest).take c.size = c.enc a := by
      rw [List.append_assoc, List.take_append_of_le_length (by rw [c.enc_len]; exact Nat.le_refl _)]
      rw [List.take_of_length_le (by rw [c.enc_len]; exact Nat.le_refl _)]
    have h2 : (c.enc a ++ (l.map c.enc).flatten ++ rest).drop c.size = (l.map c.enc).flatten ++ rest := by
      rw [List.append_assoc]
      have := c.enc_len a
      rw [← this, List.drop_left]
    rw [h1, h2, c.dec_enc, records_flatten c l k rest (by simpa using h)]

/-- The record at index `i` of the record area `bs`. -/
def recordAt (c : Codec Star) (bs : List Byte) (i : Nat) : Star := c.dec ((bs.drop (i * c.size)).take c.size)

theorem records_get (c : Codec Star) : ∀ (n : Nat) (bs : List Byte) (i : Nat), i < n →
    (records c n bs)[i]? = some (recordAt c bs i)
  | 0, _, _, h => by omega
  | n + 1, bs, 0, _ => by simp [records, recordAt]
  | n + 1, bs, i + 1, h => by
    simp only [records, List.getElem?_cons_succ]
    rw [records_get c n _ i (by omega)]
    simp only [recordAt, List.drop_drop]
    rw [Nat.succ_mul, Nat.add_comm]

theorem records_length (c : Codec Star) : ∀ (n : Nat) (bs : List Byte), (records c n bs).length = n
  | 0, _ => rfl
  | n + 1, bs => by simp [records, records_length c n]

theorem readAt_ok (file buf : List Byte) (off : Nat) (h : off + buf.length ≤ file.length) :
    readAt file false off buf = ((file.drop off).take buf.length, false) := by
  have hl : ((file.drop off).take buf.length).length = buf.length := by
    simp; omega
  unfold readAt
  simp only [Bool.false_eq_true, if_false]
  rw [hl]
  unfold overlay
  rw [hl, List.drop_length]
  simp

/-- On an intact record area the loop finds the cut of a monotone predicate. -/
theorem searchLoop_intact (c : Codec Star) (mag : Star → Option K) (m : K) (file : List Byte) (count : Nat)
    (hlen : headerSize + count * c.size ≤ file.length) :
    ∀ (fuel : Nat) (temp : List Byte) (low high : Nat), temp.length = c.size → low ≤ high → high ≤ count →
      high - low ≤ fuel →
      (∀ i j, i ≤ j → j < count → magLe mag m (recordAt c (file.drop headerSize) j) = true →
          magLe mag m (recordAt c (file.drop headerSize) i) = true) →
      (∀ i, i < low → magLe mag m (recordAt c (file.drop headerSize) i) = true) →
      (∀ i, high ≤ i → i < count → magLe mag m (recordAt c (file.drop headerSize) i) = false) →
      ∃ k, searchLoop c mag m file fuel temp false low high = (false, k) ∧ k ≤ count ∧
        (∀ i, i < k → magLe mag m (recordAt c (file.drop headerSize) i) = true) ∧
        (∀ i, k ≤ i → i < count → magLe mag m (recordAt c (file.drop headerSize) i) = false) := by
  intro fuel
  induction fuel with
  | zero =>
    intro temp low high _ h1 h2 h3 _ h5 h6
    exact ⟨low, rfl, by omega, h5, fun i hi hc => h6 i (by omega) hc⟩
  | succ fuel ih =>
    intro temp low high ht h1 h2 h3 hmono h5 h6
    simp only [searchLoop]
    by_cases hlt : low < high
    · simp only [hlt, if_true]
      generalize hmid : low + (high - low) / 2 = mid
      have hm1 : low ≤ mid := by omega
      have hm2 : mid < high := by omega
      have hoff : headerSize + mid * c.size + temp.length ≤ file.length := by
        rw [ht]
        have : (mid + 1) * c.size ≤ count * c.size := Nat.mul_le_mul_right _ (by omega)
        rw [Nat.succ_mul] at this
        omega
      rw [readAt_ok file temp _ hoff]
      have hrec : c.dec ((file.drop (headerSize + mid * c.size)).take temp.length) =
          recordAt c (file.drop headerSize) mid := by
        unfold recordAt; rw [List.drop_drop, ht]
      have hl : ((file.drop (headerSize + mid * c.size)).take temp.length).length = c.size := by
        simp; omega
      simp only [hrec]
      by_cases hp : magLe mag m (recordAt c (file.drop headerSize) mid) = true
      · simp only [hp, if_true]
        exact ih _ (mid + 1) high hl (by omega) h2 (by omega) hmono
          (fun i hi => hmono i mid (by omega) (by omega) hp) h6
      · simp only [hp, if_false]
        refine ih _ low mid hl hm1 (by omega) (by omega) hmono h5 (fun i hi hc => ?_)
        rw [Bool.eq_false_iff]
        intro hi2
        exact hp (hmono mid i hi hc hi2)
    · simp only [hlt, if_false]
      exact ⟨low, rfl, by omega, h5, fun i hi hc => h6 i (by omega) hc⟩

theorem headerBytes_take4 (t : Byte) (n : Nat) (rest : List Byte) :
    ((headerBytes t n ++ rest).take 32).take 4 = [0x48, 0x52, 0x53, 0x43] := by
  simp [headerBytes, List.take_take]

theorem take32 (t : Byte) (n : Nat) (rest : List Byte) :
    (headerBytes t n ++ rest).take 32 = headerBytes t n := by
  rw [List.take_append_of_le_length (by rw [headerBytes_length]; exact Nat.le_refl _)]
  exact List.take_of_length_le (by rw [headerBytes_length]; exact Nat.le_refl _)

/-- Reading a file that starts with a valid header and has an intact record area whose predicate is monotone. -/
theorem read_valid (c : Codec Star) (mag : Star → Option K) (dflt : Star) (m : K) (t : Byte) (l : List Star)
    (hcount : l.length < 256 ^ 8)
    (hmono : ∀ i j (hij : i ≤ j) (hj : j < l.length), magLe mag m l[j] = true →
        magLe mag m (l[i]'(by omega)) = true) :
    ∃ k, read c mag dflt m (headerBytes t l.length ++ (l.map c.enc).flatten) = .catalog t (l.take k) ∧
      k ≤ l.length ∧ (∀ i (_ : i < k) (hl : i < l.length), magLe mag m l[i] = true) ∧
      (∀ i (_ : k ≤ i) (hl : i < l.length), magLe mag m l[i] = false) := by
  generalize hfile : headerBytes t l.length ++ (l.map c.enc).flatten = file
  have hflen : file.length = 32 + l.length * c.size := by
    rw [← hfile, List.length_append, headerBytes_length, flatten_len]
  have hdrop : file.drop headerSize = (l.map c.enc).flatten := by
    rw [← hfile]
    have : headerSize = (headerBytes t l.length).length := by rw [headerBytes_length]; rfl
    rw [this, List.drop_left]
  have hrec : ∀ i (hi : i < l.length), recordAt c (file.drop headerSize) i = l[i] := by
    intro i hi
    have h1 := records_get c l.length (file.drop headerSize) i hi
    have h2 := records_flatten c l l.length [] (Nat.le_refl _)
    rw [List.append_nil, List.take_of_length_le (Nat.le_refl _)] at h2
    rw [hdrop] at h1 ⊢
    rw [h2, List.getElem?_eq_getElem hi] at h1
    exact (Option.some.inj h1).symm
  have hhdr : readAt file false 0 (List.replicate headerSize 0) = (headerBytes t l.length, false) := by
    rw [readAt_ok _ _ _ (by rw [hflen]; simp [headerSize])]
    simp only [List.length_replicate, List.drop_zero]
    rw [← hfile]
    have := take32 t l.length ((l.map c.enc).flatten)
    rw [show headerSize = 32 from rfl, this]
  have hmagic : (headerBytes t l.length).take 4 = [0x48, 0x52, 0x53, 0x43] := by simp [headerBytes]
  have hver : (headerBytes t l.length)[4]? = some 1 := by simp [headerBytes]
  have htype : (headerBytes t l.length)[16]? = some t := by
    simp [headerBytes, leBytes]
  have hcnt : ofLeBytes ((headerBytes t l.length).drop 24) = l.length := by
    have : (headerBytes t l.length).drop 24 = leBytes 8 l.length := by
      simp [headerBytes, leBytes]
    rw [this, ofLe_leBytes 8 _ hcount]
  obtain ⟨k, hk1, hk2, hk3, hk4⟩ := searchLoop_intact c mag m file l.length (by rw [hflen]; simp [headerSize])
    l.length (c.enc dflt) 0 l.length (c.enc_len dflt) (Nat.zero_le _) (Nat.le_refl _) (by omega)
    (fun i j hij hj h => by
      rw [hrec j hj] at h
      rw [hrec i (by omega)]
      exact hmono i j hij hj h)
    (fun i hi => by omega) (fun i h1 h2 => by omega)
  refine ⟨k, ?_, hk2, ?_, ?_⟩
  · unfold read
    rw [hhdr]
    simp only [hmagic, hver, ne_eq, not_true, if_false, hcnt, hk1, htype, Option.getD_some]
    have hb : ((List.replicate k (c.enc dflt)).flatten).length = k * c.size := by
      rw [show List.replicate k (c.enc dflt) = (List.replicate k dflt).map c.enc by simp]
      rw [flatten_len]; simp
    rw [readAt_ok]
    · simp only [hb, hdrop]
      congr 1
      have : ((l.map c.enc).flatten).take (k * c.size) = ((l.take k).map c.enc).flatten := by
        have hsplit : (l.map c.enc).flatten = ((l.take k).map c.enc).flatten ++ ((l.drop k).map c.enc).flatten := by
          rw [← List.flatten_append, ← List.map_append, List.take_append_drop]
        rw [hsplit]
        have hlen : (((l.take k).map c.enc).flatten).length = k * c.size := by
          rw [flatten_len, List.length_take, Nat.min_eq_left hk2]
        rw [← hlen, List.take_left']
        rfl
      rw [this]
      have h3 := records_flatten c (l.take k) k [] (by rw [List.length_take]; exact Nat.le_min.2 ⟨Nat.le_refl _, hk2⟩)
      rw [List.append_nil] at h3
      rw [h3, List.take_take, Nat.min_self]
    · rw [hb, hflen]
      have : k * c.size ≤ l.length * c.size := Nat.mul_le_mul_right _ hk2
      simp [headerSize]; omega
  · intro i hi hl
    have := hk3 i hi
    rwa [hrec i hl] at this
  · intro i hi hl
    have := hk4 i hi hl
    rwa [hrec i hl] at this

end Huira.Stars
