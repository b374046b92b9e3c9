import Verif.ImageIO.Tiff
/-!
# The in-memory stream given to libtiff (C107)

Models the `TIFFClientOpen` callbacks of `include/huira_impl/images/io/tiff_io.ipp` 49-133: `tsize_t` is a signed, `toff_t`
an unsigned 64-bit integer; conversions and unsigned sums wrap; `memcpy` outside the buffer is `ub`.
-/
set_option linter.unusedSimpArgs false
set_option linter.unusedVariables false
namespace Huira.ImageIO.TiffMem
open Huira.ImageIO

/-- Conversion of an unsigned 64-bit number to a signed one. -/
def s64 (n : Nat) : Int := if n < 9223372036854775808 then (n : Int) else (n : Int) - 18446744073709551616
/-- Conversion of an integer to an unsigned 64-bit number. -/
def u64 (n : Int) : Nat := (n % 18446744073709551616).toNat
/-- Signed 64-bit arithmetic: overflow is undefined. -/
def i64 (n : Int) : Res Int := if -9223372036854775808 ≤ n ∧ n < 9223372036854775808 then .ok n else .ub

/-- `TiffMemState_` (tiff_io.ipp 58-62); `size` as passed by `read_tiff_raw_` (line 197). -/
structure State where
  data : List Byte
  size : Int
  pos : Nat

/-- `TiffMemState_ mem_state{data, static_cast<tsize_t>(size), 0}` (tiff_io.ipp 197). -/
def start (d : List Byte) : State := ⟨d, s64 (d.length % 18446744073709551616), 0⟩

/-- `tiff_mem_read_` (tiff_io.ipp 67-77): returns the count and the bytes copied. -/
def read (s : State) (n : Int) : Res (Int × List Byte × State) := do
  let available ← i64 (s.size - s64 s.pos)
  let toRead := if n < available then n else available
  if toRead > 0 then
    if s.pos + toRead.toNat ≤ s.data.length then
      .ok (toRead, (s.data.drop s.pos).take toRead.toNat, { s with pos := u64 (s.pos + toRead) })
    else .ub
  else .ok (toRead, [], s)

/-- `tiff_mem_seek_` (tiff_io.ipp 90-113); whence 0, 1, 2 = SEEK_SET, SEEK_CUR, SEEK_END; `(toff_t)-1` is returned on failure. -/
def seek (s : State) (off : Nat) (whence : Int) : Nat × State :=
  let go (p : Nat) : Nat × State := if p > u64 s.size then (18446744073709551615, s) else (p, { s with pos := p })
  if whence = 0 then go off
  else if whence = 1 then go ((s.pos + off) % 18446744073709551616)
  else if whence = 2 then go ((u64 s.size + off) % 18446744073709551616)
  else (18446744073709551615, s)

/-- The calls libtiff can make. -/
inductive Call
  | read (n : Int)
  | write (n : Int)
  | seek (off : Nat) (whence : Int)
  | size
  | close

/-- What a call returns: a number and, for reads, the bytes put into the caller's buffer. -/
abbrev Reply := Int × List Byte

/-- One call (tiff_io.ipp 67-133); `tiff_mem_write_`, `tiff_mem_close_` return 0. -/
def call (s : State) : Call → Res (Reply × State)
  | .read n => read s n >>= fun r => .ok ((r.1, r.2.1), r.2.2)
  | .write _ => .ok ((0, []), s)
  | .seek off w => .ok ((((seek s off w).1 : Nat), []), (seek s off w).2)
  | .size => .ok (((u64 s.size : Nat), []), s)
  | .close => .ok ((0, []), s)

/-- A history of calls. -/
def run : State → List Call → Res (List Reply × State)
  | s, [] => .ok ([], s)
  | s, c :: l => call s c >>= fun r => run r.2 l >>= fun q => .ok (r.1 :: q.1, q.2)

/-! ## Specification: a read-only file of the given bytes -/

/-- A signed 64-bit offset, as the caller means it. -/
def meant (off : Nat) : Int := s64 off

/-- Where a seek asks to go. -/
def asked (d : List Byte) (pos : Nat) (off : Nat) (whence : Int) : Option Int :=
  if whence = 0 then some off else if whence = 1 then some (pos + meant off) else if whence = 2 then some (d.length + meant off) else none

/-- The reply and new position of a read-only file of bytes `d` at position `pos`: reads deliver the next bytes, at most what is
left; seeks go to positions from 0 to the end and fail, moving nothing, otherwise. -/
def file (d : List Byte) (pos : Nat) : Call → Reply × Nat
  | .read n => if n < 0 then ((n, []), pos) else
      let bs := (d.drop pos).take n.toNat
      (((bs.length : Int), bs), pos + bs.length)
  | .write _ => ((0, []), pos)
  | .seek off w => match asked d pos off w with
      | some p => if 0 ≤ p ∧ p ≤ d.length then ((p, []), p.toNat) else ((18446744073709551615, []), pos)
      | none => ((18446744073709551615, []), pos)
  | .size => ((d.length, []), pos)
  | .close => ((0, []), pos)

def fileRun (d : List Byte) : Nat → List Call → List Reply × Nat
  | pos, [] => ([], pos)
  | pos, c :: l => ((file d pos c).1 :: (fileRun d (file d pos c).2 l).1, (fileRun d (file d pos c).2 l).2)

/-- Arguments fit their types. -/
def Fits : Call → Prop
  | .read n => -9223372036854775808 ≤ n ∧ n < 9223372036854775808
  | .write _ => True
  | .seek off _ => off < 18446744073709551616
  | .size => True
  | .close => True

/-! ## Proofs -/

theorem u64_nat (n : Nat) (h : n < 18446744073709551616) : u64 n = n := by unfold u64; omega

theorem call_ok (d : List Byte) (hd : d.length < 9223372036854775808) (pos : Nat) (hp : pos ≤ d.length) (c : Call) (hc : Fits c) :
    call ⟨d, d.length, pos⟩ c = .ok ((file d pos c).1, ⟨d, d.length, (file d pos c).2⟩) ∧ (file d pos c).2 ≤ d.length := by
  have hu : u64 (d.length : Int) = d.length := u64_nat _ (by omega)
  cases c with
  | write n => exact ⟨rfl, hp⟩
  | close => exact ⟨rfl, hp⟩
  | size => refine ⟨?_, hp⟩; simp only [call, file, hu]
  | read n =>
    have hs : s64 pos = pos := by unfold s64; rw [if_pos (by omega)]
    have hi : i64 ((d.length : Int) - pos) = .ok ((d.length : Int) - pos) := by unfold i64; rw [if_pos (by omega)]
    simp only [call, read, file, hs, hi, Res.ok_bind]
    rcases lt_or_ge n 0 with h0 | h0
    · rw [if_pos h0, if_pos (by omega : n < (d.length : Int) - pos), if_neg (by omega)]
      exact ⟨rfl, hp⟩
    · rw [if_neg (not_lt.2 h0)]
      have hlen : ((d.drop pos).take n.toNat).length = min n.toNat (d.length - pos) := by simp
      rw [hlen]
      refine ⟨?_, by show pos + min _ _ ≤ _; omega⟩
      by_cases hn : n < (d.length : Int) - pos
      · rw [if_pos hn]
        have hm : min n.toNat (d.length - pos) = n.toNat := by omega
        rw [hm]
        by_cases hz : n > 0
        · rw [if_pos hz, if_pos (by omega)]
          simp only [Res.ok_bind]
          rw [show (pos : Int) + n = ((pos + n.toNat : Nat) : Int) by omega, u64_nat _ (by omega)]
          rw [show ((n.toNat : Nat) : Int) = n by omega]
        · have : n = 0 := by omega
          subst this
          rw [if_neg hz]; simp
      · rw [if_neg hn]
        have hm : min n.toNat (d.length - pos) = d.length - pos := by omega
        rw [hm]
        have hm2 : ((d.length : Int) - pos).toNat = d.length - pos := by omega
        have htake : (d.drop pos).take n.toNat = (d.drop pos).take (d.length - pos) := by
          rw [List.take_of_length_le (by simp; omega), List.take_of_length_le (by simp)]
        by_cases hz : (d.length : Int) - pos > 0
        · rw [if_pos hz, if_pos (by rw [hm2]; omega)]
          simp only [Res.ok_bind]
          rw [hm2, htake, show (pos : Int) + ((d.length : Int) - pos) = ((pos + (d.length - pos) : Nat) : Int) by omega, u64_nat _ (by omega)]
          rw [show (((d.length - pos : Nat)) : Int) = (d.length : Int) - pos by omega]
        · rw [if_neg hz]
          have e : d.length - pos = 0 := by omega
          rw [htake, e, show (d.length : Int) - pos = 0 by omega]
          simp
  | seek off w =>
    have hoff : off < 18446744073709551616 := hc
    simp only [call, seek, file, asked, hu, meant]
    have key : ∀ (p : Nat) (q : Int), p < 18446744073709551616 → (p : Int) = q ∨ (¬ (0 ≤ q ∧ q ≤ d.length) ∧ p > d.length) →
        (Res.ok ((((if p > d.length then ((18446744073709551615 : Nat), (⟨d, d.length, pos⟩ : State)) else (p, ⟨d, d.length, p⟩)).1 : Int), ([] : List Byte)),
          (if p > d.length then ((18446744073709551615 : Nat), (⟨d, d.length, pos⟩ : State)) else (p, ⟨d, d.length, p⟩)).2) : Res (Reply × State)) =
        .ok ((if 0 ≤ q ∧ q ≤ d.length then (((q, []), q.toNat) : Reply × Nat) else ((18446744073709551615, []), pos)).1,
          ⟨d, d.length, (if 0 ≤ q ∧ q ≤ d.length then (((q, []), q.toNat) : Reply × Nat) else ((18446744073709551615, []), pos)).2⟩) ∧
        (if 0 ≤ q ∧ q ≤ d.length then (((q, []), q.toNat) : Reply × Nat) else ((18446744073709551615, []), pos)).2 ≤ d.length := by
      intro p q hp64 h
      rcases h with h | ⟨h1, h2⟩
      · by_cases hle : p > d.length
        · rw [if_pos hle, if_neg (by omega)]; exact ⟨rfl, hp⟩
        · rw [if_neg hle, if_pos (by omega)]
          subst h
          exact ⟨by simp, by show (p : Int).toNat ≤ _; omega⟩
      · rw [if_pos h2, if_neg h1]; exact ⟨rfl, hp⟩
    by_cases w0 : w = 0
    · simp only [if_pos w0]
      exact key off off hoff (Or.inl rfl)
    · simp only [if_neg w0]
      by_cases w1 : w = 1
      · simp only [if_pos w1]
        apply key _ _ (Nat.mod_lt _ (by norm_num))
        unfold s64; split <;> omega
      · simp only [if_neg w1]
        by_cases w2 : w = 2
        · simp only [if_pos w2]
          apply key _ _ (Nat.mod_lt _ (by norm_num))
          unfold s64; split <;> omega
        · simp only [if_neg w2]; exact ⟨rfl, hp⟩

/-- **C107.**  For every byte string and every history of calls, the stream handed to libtiff behaves exactly like a read-only
file of those bytes: same replies, same bytes, same position, and nothing outside the buffer is touched. -/
theorem C107_stream (d : List Byte) (hd : d.length < 9223372036854775808) (l : List Call) (hl : ∀ c ∈ l, Fits c) :
    ∃ s, run (start d) l = .ok ((fileRun d 0 l).1, s) ∧ s.pos = (fileRun d 0 l).2 ∧ s.pos ≤ d.length := by
  have hs : start d = ⟨d, d.length, 0⟩ := by
    unfold start
    have : s64 (d.length % 18446744073709551616) = d.length := by
      rw [Nat.mod_eq_of_lt (by omega)]; unfold s64; rw [if_pos hd]
    rw [this]
  rw [hs]
  have gen : ∀ (l : List Call) (pos : Nat), pos ≤ d.length → (∀ c ∈ l, Fits c) →
      run ⟨d, d.length, pos⟩ l = .ok ((fileRun d pos l).1, ⟨d, d.length, (fileRun d pos l).2⟩) ∧ (fileRun d pos l).2 ≤ d.length := by
    intro l
    induction l with
    | nil => intro pos hp _; exact ⟨rfl, hp⟩
    | cons c l ih =>
      intro pos hp hl
      obtain ⟨h1, h2⟩ := call_ok d hd pos hp c (hl c (List.mem_cons_self ..))
      obtain ⟨h3, h4⟩ := ih _ h2 (fun c hc => hl c (List.mem_cons_of_mem _ hc))
      refine ⟨?_, h4⟩
      show (call _ c >>= _) = _
      rw [h1, Res.ok_bind]
      show (run ⟨d, d.length, (file d pos c).2⟩ l >>= _) = _
      rw [h3, Res.ok_bind]; rfl
  obtain ⟨h1, h2⟩ := gen l 0 (by omega) hl
  exact ⟨_, h1, rfl, h2⟩

theorem reads_take (d : List Byte) : ∀ (ns : List Nat) (pos : Nat),
    ((fileRun d pos (ns.map fun n : Nat => Call.read (n : Int))).1.flatMap (·.2)) = (d.drop pos).take ns.sum ∧ (pos ≤ d.length → (fileRun d pos (ns.map fun n : Nat => Call.read (n : Int))).2 = min d.length (pos + ns.sum))
  | [], pos => by simp [fileRun]
  | n :: ns, pos => by
    have hf : file d pos (.read n) = ((((((d.drop pos).take n).length : Nat) : Int), (d.drop pos).take n), pos + ((d.drop pos).take n).length) := by
      simp [file]
    obtain ⟨h1, h2⟩ := reads_take d ns (pos + ((d.drop pos).take n).length)
    simp only [List.map_cons, fileRun, List.flatMap_cons, hf]
    refine ⟨?_, ?_⟩
    · rw [h1, List.sum_cons, ← List.drop_drop, List.take_add]
      congr 1
      rcases Nat.le_total n (d.drop pos).length with h | h
      · rw [List.length_take, Nat.min_eq_left h]
      · rw [List.take_of_length_le h, List.drop_length, List.drop_eq_nil_of_le h]
    · intro hp
      rw [h2 (by simp; omega)]
      simp; omega

/-- **C107.**  Reading from the start in pieces of any sizes delivers the file in order, without gaps or repetitions. -/
theorem C107_sequential (d : List Byte) (hd : d.length < 9223372036854775808) (ns : List Nat) (hn : ∀ n ∈ ns, n < 9223372036854775808) :
    ∃ rs s, run (start d) (ns.map fun n : Nat => Call.read (n : Int)) = .ok (rs, s) ∧ rs.flatMap (·.2) = d.take ns.sum := by
  obtain ⟨s, h1, _⟩ := C107_stream d hd (ns.map fun n : Nat => Call.read (n : Int)) (by
    intro c hc
    obtain ⟨n, h, rfl⟩ := List.mem_map.1 hc
    have := hn n h
    simp only [Fits]; omega)
  exact ⟨_, s, h1, by rw [(reads_take d ns 0).1]; simp⟩

/-- Five bytes: read two, go back one from the current position (offset −1 as an unsigned number), read past the end, seek
beyond the end (refused), ask the size. -/
example : ∃ s, run (start [10, 11, 12, 13, 14]) [.read 2, .seek 18446744073709551615 1, .read 100, .seek 6 0, .seek 18446744073709551614 2, .read 1, .size] =
    .ok ([(2, [10, 11]), (1, []), (4, [11, 12, 13, 14]), (18446744073709551615, []), (3, []), (1, [13]), (5, [])], s) := by
  obtain ⟨s, h, _⟩ := C107_stream [10, 11, 12, 13, 14] (by decide) [.read 2, .seek 18446744073709551615 1, .read 100, .seek 6 0, .seek 18446744073709551614 2, .read 1, .size]
    (by
      intro c hc
      simp only [List.mem_cons, List.not_mem_nil, or_false] at hc
      rcases hc with rfl | rfl | rfl | rfl | rfl | rfl | rfl <;> simp [Fits])
  refine ⟨s, ?_⟩
  rw [h]
  simp [fileRun, file, asked, meant, s64]

end Huira.ImageIO.TiffMem
