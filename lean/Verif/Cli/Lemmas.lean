import Verif.Cli.Model
import Mathlib.Tactic.Common
import Mathlib.Data.List.Nodup
/-! Lemmas about the disk, the stream and the download loop. -/
namespace Huira.Cli
set_option linter.unusedSimpArgs false

theorem run_append (a b : List Op) (fs : Fs) : run (a ++ b) fs = run b (run a fs) := by
  simp [run, List.foldl_append]

theorem run_cons (o : Op) (b : List Op) (fs : Fs) : run (o :: b) fs = run b (o.apply fs) := rfl
theorem run_nil (fs : Fs) : run [] fs = fs := rfl

theorem apply_other (fs : Fs) (o : Op) (g : String) (h : o.name ≠ g) : o.apply fs g = fs g := by
  cases o <;> simp only [Op.apply, Op.name] at * <;> simp [Ne.symm h]

theorem run_other : ∀ (ops : List Op) (fs : Fs) (g : String), (∀ o ∈ ops, o.name ≠ g) → run ops fs g = fs g
  | [], _, _, _ => rfl
  | o :: ops, fs, g, h => by
    rw [run_cons, run_other ops _ g (fun x hx => h x (List.mem_cons_of_mem _ hx)),
      apply_other fs o g (h o List.mem_cons_self)]

/-- The disk only grows with a write. -/
theorem write_prefix (d : Device) (k : Nat) (s : Out) (bs : List Byte) :
    (s.write d k bs).disk = s.disk ++ (s.write d k bs).disk.drop s.disk.length := by
  unfold Out.write
  split
  · simp
  · simp

theorem close_prefix (d : Device) (s : Out) :
    (s.close d).disk = s.disk ++ (s.close d).disk.drop s.disk.length := by
  unfold Out.close
  simp

theorem write_content (d : Device) (k : Nat) (s : Out) (bs : List Byte) (hs : s.bad = false) :
    (s.write d k bs).disk ++ (s.write d k bs).buf = s.disk ++ s.buf ++ bs := by
  unfold Out.write
  simp [hs]

theorem write_room (d : Device) (k : Nat) (s : Out) (bs : List Byte) (hs : s.bad = false)
    (hr : (s.disk ++ s.buf ++ bs).length ≤ d.room) : (s.write d k bs).bad = false := by
  unfold Out.write
  simp [hs] at *
  omega

theorem close_content (d : Device) (s : Out) (hr : (s.disk ++ s.buf).length ≤ d.room) :
    (s.close d).disk = s.disk ++ s.buf := by
  unfold Out.close
  have : min s.buf.length (d.room - s.disk.length) = s.buf.length := by
    simp at hr; omega
  simp [this]

/-- Operations of a stream are on its own file. -/
theorem pump_names (d : Device) (f : String) : ∀ (cs : List (List Byte)) (k : Nat) (s : Out),
    ∀ o ∈ (pump d f k s cs).1, o.name = f
  | [], _, _ => by intro o ho; simp [pump] at ho
  | c :: cs, k, s => by
    intro o ho
    simp only [pump] at ho
    split at ho
    · simp at ho; subst ho; rfl
    · simp only [List.mem_cons] at ho
      rcases ho with rfl | ho
      · rfl
      · exact pump_names d f cs _ _ o ho

/-- What the stream thinks is on the disk is on the disk. -/
theorem pump_disk (d : Device) (f : String) : ∀ (cs : List (List Byte)) (k : Nat) (s : Out) (fs : Fs),
    fs f = some s.disk → run (pump d f k s cs).1 fs f = some (pump d f k s cs).2.disk
  | [], _, _, _, h => by simpa [pump, run_nil] using h
  | c :: cs, k, s, fs, h => by
    have hw := write_prefix d k s c
    have hstep : (Op.append f ((s.write d k c).disk.drop s.disk.length)).apply fs f = some (s.write d k c).disk := by
      simp [Op.apply, h]; exact hw.symm
    simp only [pump]
    split
    · simpa [run_cons, run_nil] using hstep
    · simp only [run_cons]
      exact pump_disk d f cs (k + 1) (s.write d k c) _ hstep

theorem pump_content (d : Device) (f : String) : ∀ (cs : List (List Byte)) (k : Nat) (s : Out), s.bad = false →
    (pump d f k s cs).2.bad = false →
    (pump d f k s cs).2.disk ++ (pump d f k s cs).2.buf = s.disk ++ s.buf ++ cs.flatten
  | [], _, _, _, _ => by simp [pump]
  | c :: cs, k, s, hs, hb => by
    simp only [pump] at hb ⊢
    split
    · rename_i h; simp [h] at hb
    · rename_i h
      simp only [h] at hb
      rw [pump_content d f cs (k + 1) (s.write d k c) (by simpa using h) (by simpa using hb),
        write_content d k s c hs]
      simp

theorem pump_room (d : Device) (f : String) : ∀ (cs : List (List Byte)) (k : Nat) (s : Out), s.bad = false →
    (s.disk ++ s.buf ++ cs.flatten).length ≤ d.room → (pump d f k s cs).2.bad = false
  | [], _, _, hs, _ => by simpa [pump] using hs
  | c :: cs, k, s, hs, hr => by
    have h1 := write_room d k s c hs (by simp at hr ⊢; omega)
    simp only [pump, h1]
    refine pump_room d f cs (k + 1) (s.write d k c) h1 ?_
    rw [write_content d k s c hs]
    simpa [Nat.add_assoc] using hr

theorem download_names (e : Net) (f : String) : ∀ o ∈ (download e f).1, o.name = f := by
  intro o ho
  simp only [download] at ho
  split at ho
  · simp at ho
  split at ho
  · simp at ho
  · simp only [List.cons_append, List.mem_cons, List.mem_append] at ho
    rcases ho with rfl | ho | rfl | ho
    · rfl
    · exact pump_names _ _ _ _ _ o ho
    · rfl
    · split at ho <;> simp at ho
      subst ho; rfl

theorem fetchLoop_names (e : Net) (force : Bool) : ∀ (fl : List String) (fs : Fs),
    ∀ o ∈ (fetchLoop e force fl fs).1, o.name ∈ fl
  | [], _ => by intro o ho; simp [fetchLoop] at ho
  | f :: fl, fs => by
    intro o ho
    simp only [fetchLoop] at ho
    split at ho
    · exact List.mem_cons_of_mem _ (fetchLoop_names e force fl fs o ho)
    · simp only [List.mem_append] at ho
      rcases ho with ho | ho
      · rw [download_names e f o ho]; exact List.mem_cons_self
      · exact List.mem_cons_of_mem _ (fetchLoop_names e force fl _ o ho)

/-- The file after a stream was created, filled and closed on a device with room. -/
theorem stream_disk (d : Device) (f : String) (cs : List (List Byte)) (fs : Fs)
    (hr : cs.flatten.length ≤ d.room) :
    run (.create f :: (pump d f 0 ⟨[], [], false⟩ cs).1 ++ [closeOp d f (pump d f 0 ⟨[], [], false⟩ cs).2]) fs f =
      some cs.flatten := by
  have hb := pump_room d f cs 0 ⟨[], [], false⟩ rfl (by simpa using hr)
  have hc := pump_content d f cs 0 ⟨[], [], false⟩ rfl hb
  have hd := pump_disk d f cs 0 ⟨[], [], false⟩ ((Op.create f).apply fs) (by simp [Op.apply])
  simp only [Op.apply] at hd
  rw [List.cons_append, run_cons, run_append]
  simp only [run_cons, run_nil, closeOp, Op.apply, if_true, hd, Option.map_some]
  rw [← close_prefix, close_content]
  · rw [hc]; simp
  · rw [hc]; simpa using hr

/-- Result of one download: on success the file is what was sent, on failure it is gone or was never touched. -/
theorem download_result (e : Net) (f : String) (fs : Fs) :
    ((download e f).2 = true → (e.chunks f).flatten.length ≤ (e.device f).room →
      e.netOk f = true ∧ run (download e f).1 fs f = some (e.chunks f).flatten) ∧
    ((download e f).2 = false → run (download e f).1 fs f = none ∨ (download e f).1 = []) := by
  simp only [download]
  split
  · simp
  split
  · simp
  · refine ⟨fun h hr => ?_, fun h => Or.inl ?_⟩
    · simp only at h
      refine ⟨by simp at h; exact h.1, ?_⟩
      simp only [h, if_true]
      have := stream_disk (e.device f) f (e.chunks f) fs hr
      simpa using this
    · simp only at h
      simp only [h]
      rw [run_append]
      simp [run_append, run_cons, run_nil, Op.apply]

end Huira.Cli
