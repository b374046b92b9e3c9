import Verif.FrameBuffer.Model
/-! # Frame buffer property C20 -/
set_option linter.unusedSimpArgs false
namespace Huira.FrameBuffer
variable {P : Type}

/-- Specification: the last request made for a channel whose `enable_*` call satisfies `p` (`none`: never). -/
def lastRequest (p : Channel → Bool) : List (Op P) → Option Bool
  | [] => none
  | op :: ops =>
    match lastRequest p ops with
    | some r => some r
    | none => match op with
      | .enable c on => if p c then some on else none
      | _ => none

/-- C20 in full: on a fresh buffer, `has_X` is the last request for X (disabled if there was none), an enabled
channel has the buffer's size. -/
def C20_full (dflt : Store → P) : Prop :=
  ∀ (w h : Nat) (ops : List (Op P)) (c : Channel),
    has (run dflt (mk w h) ops) c = (lastRequest (fun d => decide (d = c)) ops).getD false

/-- **C20 (violated).** `enable_received_indirect_power(false)` also disables the direct channel. -/
theorem C20_violated (dflt : Store → P) : ¬ C20_full dflt := by
  intro h
  have := h 1 1 [.enable .receivedDirect true, .enable .receivedIndirect false] .receivedDirect
  simp [lastRequest, run, step, enable, Channel.touches, Channel.store, enable1, setImg, mk, Img.empty, has, hasStore] at this

/-- **C20 (violated).** Disabling the sensor response discards the received power the user asked for. -/
theorem C20_sensor_discards_power (dflt : Store → P) :
    has (run dflt (mk 1 1) [.enable .receivedPower true, .enable .sensorResponse false]) .receivedPower = false := by
  simp [run, step, enable, Channel.touches, Channel.store, enable1, setImg, mk, Img.empty, has, hasStore]

/-- **C20 (violated).** Contents: writing the "direct" channel overwrites the "indirect" one (same image). -/
theorem C20_direct_indirect_aliased (b : Buffer P) (dflt : Store → P) (i : Nat) (v : P) :
    (step dflt b (.poke .receivedDirect i v)).img (Channel.store .receivedIndirect) =
    (step dflt b (.poke .receivedIndirect i v)).img (Channel.store .receivedIndirect) := rfl

/-- **C20 (violated).** On a buffer of resolution 0x0 every channel reports itself enabled from the start. -/
theorem C20_zero_resolution (c : Channel) : has (mk (P := P) 0 0) c = true := by
  simp [has, hasStore, mk, Img.empty]

theorem enable1_dims (dflt : Store → P) (b : Buffer P) (on : Bool) (s : Store) :
    (enable1 dflt b on s).width = b.width ∧ (enable1 dflt b on s).height = b.height := by
  unfold enable1; split
  · exact ⟨rfl, rfl⟩
  · split <;> exact ⟨rfl, rfl⟩

theorem enable1_other (dflt : Store → P) (b : Buffer P) (on : Bool) (s t : Store) (h : t ≠ s) :
    (enable1 dflt b on s).img t = b.img t := by
  unfold enable1; split
  · simp [setImg, h]
  · split
    · simp [setImg, h]
    · rfl

theorem enable1_has (dflt : Store → P) (b : Buffer P) (on : Bool) (s : Store) (hnz : ¬ (b.width = 0 ∧ b.height = 0)) :
    hasStore (enable1 dflt b on s) s = on := by
  unfold enable1 hasStore
  cases on
  · simp only [if_true, setImg, Img.empty]
    have : ¬ (0 = b.width ∧ 0 = b.height) := by omega
    rw [← Bool.decide_and]
    simpa using this
  · simp only [Bool.true_eq_false, if_false]
    split
    · simp [setImg]
    · rename_i h
      rw [← Bool.decide_and]
      simp only [decide_eq_true_eq]
      omega

theorem enable_dims (dflt : Store → P) (b : Buffer P) (c : Channel) (on : Bool) :
    (enable dflt b c on).width = b.width ∧ (enable dflt b c on).height = b.height := by
  cases c <;> simp only [enable, Channel.touches, List.foldl] <;>
    (try simp only [(enable1_dims dflt _ on _).1, (enable1_dims dflt _ on _).2]) <;> trivial

theorem step_dims (dflt : Store → P) (b : Buffer P) (op : Op P) :
    (step dflt b op).width = b.width ∧ (step dflt b op).height = b.height := by
  cases op with
  | enable c on => exact enable_dims dflt b c on
  | clear => exact ⟨rfl, rfl⟩
  | poke c i v => exact ⟨rfl, rfl⟩

theorem enable_other (dflt : Store → P) (b : Buffer P) (c : Channel) (on : Bool) (t : Store) (h : t ∉ c.touches) :
    (enable dflt b c on).img t = b.img t := by
  cases c <;> simp only [enable, Channel.touches, List.foldl, List.mem_cons, List.not_mem_nil, or_false, not_or] at * <;>
    first
    | exact enable1_other dflt b on _ t h
    | (rw [enable1_other dflt _ on _ t h.2, enable1_other dflt _ on _ t h.1])

theorem enable_hasStore (dflt : Store → P) (b : Buffer P) (c : Channel) (on : Bool) (t : Store)
    (hnz : ¬ (b.width = 0 ∧ b.height = 0)) (h : t ∈ c.touches) : hasStore (enable dflt b c on) t = on := by
  cases c <;> simp only [enable, Channel.touches, List.foldl, List.mem_cons, List.not_mem_nil, or_false] at * <;>
    first
    | (subst h; exact enable1_has dflt b on _ hnz)
    | skip
  rcases h with rfl | rfl
  · have h1 := enable1_has dflt b on .receivedPower hnz
    unfold hasStore at h1 ⊢
    rw [enable1_other dflt _ on _ _ (by decide), (enable1_dims dflt _ on _).1, (enable1_dims dflt _ on _).2]
    exact h1
  · apply enable1_has
    rw [(enable1_dims dflt _ on _).1, (enable1_dims dflt _ on _).2]
    exact hnz

theorem hasStore_congr (b b' : Buffer P) (t : Store) (h1 : b'.width = b.width) (h2 : b'.height = b.height)
    (h3 : (b'.img t).width = (b.img t).width) (h4 : (b'.img t).height = (b.img t).height) :
    hasStore b' t = hasStore b t := by
  unfold hasStore; rw [h1, h2, h3, h4]

/-- The `enable_*` call of `d` acts on the image of `c`. -/
def shares (c d : Channel) : Bool := decide (c.store ∈ d.touches)

theorem has_run (dflt : Store → P) (c : Channel) : ∀ (ops : List (Op P)) (b : Buffer P),
    ¬ (b.width = 0 ∧ b.height = 0) → has (run dflt b ops) c = (lastRequest (shares c) ops).getD (has b c)
  | [], b, _ => rfl
  | op :: ops, b, hnz => by
    have hd := step_dims dflt b op
    have ih := has_run dflt c ops (step dflt b op) (by rw [hd.1, hd.2]; exact hnz)
    simp only [run, List.foldl_cons] at ih ⊢
    rw [ih]
    simp only [lastRequest]
    cases lastRequest (shares c) ops with
    | some r => rfl
    | none =>
      simp only [Option.getD_none]
      cases op with
      | enable d on =>
        simp only [step]
        by_cases hs : shares c d = true
        · simp only [hs, if_true, Option.getD_some]
          exact enable_hasStore dflt b d on c.store hnz (by simpa [shares] using hs)
        · simp only [hs, if_false, Option.getD_none]
          have hn : c.store ∉ d.touches := by simpa [shares] using hs
          exact hasStore_congr _ _ _ (enable_dims dflt b d on).1 (enable_dims dflt b d on).2
            (by rw [enable_other dflt b d on _ hn]) (by rw [enable_other dflt b d on _ hn])
      | clear =>
        refine hasStore_congr _ _ _ rfl rfl ?_ ?_ <;> simp only [step, clear] <;> split <;> rfl
      | poke d i v =>
        refine hasStore_congr _ _ _ rfl rfl ?_ ?_ <;> simp only [step, setImg] <;> split <;> simp_all

theorem has_mk (w h : Nat) (hnz : ¬ (w = 0 ∧ h = 0)) (c : Channel) : has (mk (P := P) w h) c = false := by
  show (decide (0 = w) && decide (0 = h)) = false
  rw [← Bool.decide_and, decide_eq_false_iff_not]
  omega

/-- **C20 (partial).** For a non-empty resolution and every history, `has_X` reports the last request that reached the
image behind X: for depth, albedo, ids and both normals that is the last request for X itself. -/
theorem C20_has_partial (dflt : Store → P) (w h : Nat) (hnz : ¬ (w = 0 ∧ h = 0)) (ops : List (Op P)) (c : Channel)
    (hc : c ∈ [Channel.depth, .albedo, .geometryIds, .cameraNormals, .worldNormals, .sensorResponse]) :
    has (run dflt (mk w h) ops) c = (lastRequest (fun d => decide (d = c)) ops).getD false := by
  rw [has_run dflt c ops (mk w h) hnz]
  have h1 : shares c = fun d => decide (d = c) := by
    funext d
    simp only [List.mem_cons, List.not_mem_nil, or_false] at hc
    rcases hc with rfl | rfl | rfl | rfl | rfl | rfl <;> cases d <;> rfl
  rw [h1]
  congr 1
  exact has_mk w h hnz c

/-- What holds for the remaining channels: the last request to any of the four calls sharing the power image. -/
theorem C20_power_group (dflt : Store → P) (w h : Nat) (hnz : ¬ (w = 0 ∧ h = 0)) (ops : List (Op P)) (c : Channel)
    (hc : c ∈ [Channel.receivedDirect, .receivedIndirect, .receivedPower]) :
    has (run dflt (mk w h) ops) c = (lastRequest (fun d => decide (d ∈ [Channel.receivedDirect, .receivedIndirect,
      .receivedPower, .sensorResponse])) ops).getD false := by
  rw [has_run dflt c ops (mk w h) hnz]
  have h1 : shares c = fun d => decide (d ∈ [Channel.receivedDirect, .receivedIndirect, .receivedPower,
      .sensorResponse]) := by
    funext d
    simp only [List.mem_cons, List.not_mem_nil, or_false] at hc
    rcases hc with rfl | rfl | rfl <;> cases d <;> rfl
  rw [h1]
  congr 1
  exact has_mk w h hnz c

/-- An invariant of every history: each image is either the empty image or has the buffer's size and exactly
`width * height` pixels. -/
def Sized (b : Buffer P) : Prop := ∀ s, b.img s = Img.empty ∨
  ((b.img s).width = b.width ∧ (b.img s).height = b.height ∧ (b.img s).data.length = b.width * b.height)

theorem enable1_sized (dflt : Store → P) (b : Buffer P) (on : Bool) (s : Store) (h : Sized b) :
    Sized (enable1 dflt b on s) := by
  intro t
  rw [(enable1_dims dflt b on s).1, (enable1_dims dflt b on s).2]
  by_cases ht : t = s
  · subst ht
    unfold enable1
    split
    · left; simp [setImg]
    · split
      · right; simp [setImg]
      · rename_i hn
        rcases h t with h1 | h1
        · left; exact h1
        · right; exact h1
  · rw [enable1_other dflt b on s t ht]; exact h t

theorem step_sized (dflt : Store → P) (b : Buffer P) (op : Op P) (h : Sized b) : Sized (step dflt b op) := by
  cases op with
  | enable c on =>
    cases c <;> simp only [step, enable, Channel.touches, List.foldl] <;>
      first
      | exact enable1_sized dflt _ on _ (enable1_sized dflt _ on _ h)
      | exact enable1_sized dflt _ on _ h
  | clear =>
    intro s
    simp only [step, clear]
    split
    · rcases h s with h1 | h1
      · left; rw [h1]; rfl
      · right; simpa using h1
    · exact h s
  | poke c i v =>
    intro s
    simp only [step, setImg]
    split
    · rename_i hs
      subst hs
      rcases h c.store with h1 | h1
      · left; rw [h1]; rfl
      · right; simpa using h1
    · exact h s

/-- **C20.** After every history an enabled channel's image has the buffer's width, height and pixel count. -/
theorem C20_enabled_size (dflt : Store → P) (w h : Nat) (hnz : ¬ (w = 0 ∧ h = 0)) (ops : List (Op P)) (c : Channel)
    (he : has (run dflt (mk w h) ops) c = true) :
    let i := (run dflt (mk w h) ops).img c.store
    i.width = w ∧ i.height = h ∧ i.data.length = w * h := by
  intro i
  have hs : ∀ (ops : List (Op P)) (b : Buffer P), Sized b → ¬ (b.width = 0 ∧ b.height = 0) →
      Sized (run dflt b ops) ∧ (run dflt b ops).width = b.width ∧ (run dflt b ops).height = b.height := by
    intro ops
    induction ops with
    | nil => intro b hb _; exact ⟨hb, rfl, rfl⟩
    | cons op ops ih =>
      intro b hb hz
      have hd := step_dims dflt b op
      have := ih (step dflt b op) (step_sized dflt b op hb) (by rw [hd.1, hd.2]; exact hz)
      simp only [run, List.foldl_cons] at this ⊢
      rw [hd.1, hd.2] at this
      exact this
  obtain ⟨h1, h2, h3⟩ := hs ops (mk w h) (fun _ => Or.inl rfl) hnz
  rcases h1 c.store with h4 | h4
  · exfalso
    unfold has hasStore at he
    rw [h4, h2, h3] at he
    have he' : (decide (0 = w) && decide (0 = h)) = true := he
    rw [← Bool.decide_and, decide_eq_true_eq] at he'
    omega
  · rw [h2, h3] at h4
    exact h4

/-- **C20.** Enabling an enabled channel keeps its contents. -/
theorem C20_enable_keeps (dflt : Store → P) (b : Buffer P) (c : Channel) (hc : c ≠ .sensorResponse)
    (he : has b c = true) : enable dflt b c true = b := by
  have h1 : ∀ s, hasStore b s = true → enable1 dflt b true s = b := by
    intro s hs
    unfold hasStore at hs
    rw [← Bool.decide_and, decide_eq_true_eq] at hs
    unfold enable1
    rw [if_neg (by decide), if_neg (by omega)]
  cases c <;> first | exact absurd rfl hc | exact h1 _ he

/-- **C20.** No call on a channel with its own image changes another channel's image, in any state; `clear`
and writes touch no dimension. -/
theorem C20_frame (dflt : Store → P) (b : Buffer P) (c d : Channel) (on : Bool)
    (h : c.store ∉ d.touches) : (enable dflt b d on).img c.store = b.img c.store :=
  enable_other dflt b d on c.store h

/-- **C20.** `clear` fills every enabled image with its default. -/
theorem C20_clear (dflt : Store → P) (b : Buffer P) (c : Channel) (he : has b c = true) :
    ∀ v ∈ ((clear dflt b).img c.store).data, v = dflt c.store := by
  intro v hv
  have he' : hasStore b c.store = true := he
  simp only [clear, he', if_true] at hv
  exact List.eq_of_mem_replicate hv

example : has (run (fun _ => (0 : Nat)) (mk 2 2) [.enable .depth true, .poke .depth 3 7, .enable .albedo false,
    .enable .depth true]) .depth = true ∧
    ((run (fun _ => (0 : Nat)) (mk 2 2) [.enable .depth true, .poke .depth 3 7, .enable .albedo false,
    .enable .depth true]).img .depth).data = [0, 0, 0, 7] := by decide

end Huira.FrameBuffer
