import Verif.Spec.IKEq
set_option autoImplicit false

/-! # The functions that fill a Jacobian matrix keep its size -/

namespace Roki.Jacobi
variable {K : Type*} [Field K]

theorem foldlM_length {α : Type*} {f : Mat K → α → Option (Mat K)} (hf : ∀ m a m', f m a = some m' → m'.length = m.length)
    (l : List α) : ∀ {m m' : Mat K}, l.foldlM f m = some m' → m'.length = m.length := by
  induction l with
  | nil => intro m m' h; simp only [List.foldlM_nil, pure, Option.some.injEq] at h; rw [h]
  | cons a l ih =>
    intro m m' h
    simp only [List.foldlM_cons, Option.bind_eq_bind, Option.bind_eq_some_iff] at h
    obtain ⟨m1, h1, h⟩ := h
    rw [ih h, hf _ _ _ h1]

theorem colAt_length {op : Vec3 K → Vec3 K → Vec3 K} {col : Option (Vec3 K)} {m m' : Mat K} {c : ℤ}
    (h : colAt op col m c = some m') : m'.length = m.length := by
  cases col with
  | none => simp only [colAt, Option.some.injEq] at h; rw [h]
  | some s =>
    simp only [colAt, modCol] at h
    split_ifs at h
    rw [← Option.some.inj h]; simp

theorem colLoop_length {op : Vec3 K → Vec3 K → Vec3 K} {l : Link K} {col : ℕ → Option (Vec3 K)} {m m' : Mat K}
    (h : colLoop op l col m = some m') : m'.length = m.length :=
  foldlM_length (fun _ _ _ h => colAt_length h) _ h

theorem amLoop_length {I : Mat3 K} {mass : K} {com p : Vec3 K} {l : Link K} {m m' : Mat K}
    (h : amLoop I mass com p l m = some m') : m'.length = m.length := by
  refine foldlM_length (fun m a m' h => ?_) _ h
  simp only [Option.bind_eq_some_iff] at h
  obtain ⟨m1, h1, h2⟩ := h
  rw [colAt_length h2, colAt_length h1]

theorem walk_length {f : Link K → Mat K → Option (Mat K)} (hf : ∀ l m m', f l m = some m' → m'.length = m.length)
    {ls : List (Link K)} (p : List ℕ) : ∀ {m m' : Mat K}, walk f ls p m = some m' → m'.length = m.length := by
  induction p with
  | nil => intro m m' h; simp [walk] at h
  | cons i p ih =>
    intro m m' h
    simp only [walk, Option.bind_eq_bind, Option.bind_eq_some_iff] at h
    obtain ⟨l, _, m1, h1, h⟩ := h
    split_ifs at h
    · rw [← Option.some.inj h, hf _ _ _ h1]
    · rw [ih h, hf _ _ _ h1]

theorem walkBelow_length {f : Link K → Mat K → Option (Mat K)} (hf : ∀ l m m', f l m = some m' → m'.length = m.length)
    {ls : List (Link K)} (p : List ℕ) : ∀ {m m' : Mat K}, walkBelow f ls p m = some m' → m'.length = m.length := by
  induction p with
  | nil => intro m m' h; simp [walkBelow] at h
  | cons i p ih =>
    intro m m' h
    simp only [walkBelow] at h
    split_ifs at h
    · rw [← Option.some.inj h]
    · simp only [Option.bind_eq_bind, Option.bind_eq_some_iff] at h
      obtain ⟨l, _, m1, h1, h⟩ := h
      rw [ih h, hf _ _ _ h1]

theorem walkAngTo_length {f : Link K → Mat K → Option (Mat K)} (hf : ∀ l m m', f l m = some m' → m'.length = m.length)
    {ls : List (Link K)} {fr : ℕ} (p : List ℕ) :
    ∀ {m m' : Mat K} {b : Bool}, walkAngTo f fr ls p m = some (b, m') → m'.length = m.length := by
  induction p with
  | nil => intro m m' b h; simp [walkAngTo] at h
  | cons i p ih =>
    intro m m' b h
    simp only [walkAngTo] at h
    split_ifs at h
    · simp only [Option.some.injEq, Prod.mk.injEq] at h; rw [h.2]
    · simp only [Option.some.injEq, Prod.mk.injEq] at h; rw [h.2]
    · simp only [Option.bind_eq_bind, Option.bind_eq_some_iff] at h
      obtain ⟨l, _, m1, h1, h⟩ := h
      rw [ih h, hf _ _ _ h1]

theorem walkLinTo_length {f : Link K → Mat K → Option (Mat K)} (hf : ∀ l m m', f l m = some m' → m'.length = m.length)
    {ls : List (Link K)} {fr : ℕ} (p : List ℕ) :
    ∀ {m m' : Mat K} {b : Bool}, walkLinTo f fr ls p m = some (b, m') → m'.length = m.length := by
  induction p with
  | nil => intro m m' b h; simp [walkLinTo] at h
  | cons i p ih =>
    intro m m' b h
    simp only [walkLinTo] at h
    by_cases hi : i = fr
    · simp only [hi, if_true, Option.some.injEq, Prod.mk.injEq] at h; rw [h.2]
    · simp only [hi, if_false, Option.bind_eq_bind, Option.bind_eq_some_iff] at h
      obtain ⟨l, _, m1, h1, h⟩ := h
      split_ifs at h
      · simp only [Option.some.injEq, Prod.mk.injEq] at h; rw [← h.2, hf _ _ _ h1]
      · rw [ih h, hf _ _ _ h1]

theorem zero_length (m : Mat K) : (zero m).length = m.length := by simp [zero]

theorem wldPos_sized : IK.KeepsSize (IKFns.wldPos (K := K)) := by
  intro c a m J h
  simp only [IKFns.wldPos, wldLin, Option.bind_eq_bind, Option.bind_eq_some_iff] at h
  obtain ⟨_, _, _, _, h⟩ := h
  rw [walk_length (fun _ _ _ h => colLoop_length h) _ h, zero_length]

theorem wldAtt_sized [Zm K] (acm : IKAcm K → Vec3 K → IKAcm K × Vec3 K) : IK.KeepsSize (IKFns.wldAtt acm) := by
  intro c a m J h
  simp only [IKFns.wldAtt, wldAng, Option.bind_eq_some_iff] at h
  obtain ⟨_, _, h⟩ := h
  rw [walk_length (fun _ _ _ h => colLoop_length h) _ h, zero_length]

theorem l2lPos_sized : IK.KeepsSize (IKFns.l2lPos (K := K)) := by
  intro c a m J h
  simp only [IKFns.l2lPos, linkToLinkLin, Option.bind_eq_bind, Option.bind_eq_some_iff] at h
  obtain ⟨_, _, _, _, ⟨b, m1⟩, h1, h⟩ := h
  have := walkLinTo_length (fun _ _ _ h => colLoop_length h) _ h1
  rw [zero_length] at this
  split_ifs at h
  · rw [← Option.some.inj h, this]
  · simp only [Option.bind_eq_some_iff] at h
    obtain ⟨_, _, h⟩ := h
    rw [walk_length (fun _ _ _ h => colLoop_length h) _ h, this]

theorem l2lAtt_sized [Zm K] (acm : IKAcm K → Vec3 K → IKAcm K × Vec3 K) : IK.KeepsSize (IKFns.l2lAtt acm) := by
  intro c a m J h
  simp only [IKFns.l2lAtt, linkToLinkAng, Option.bind_eq_bind, Option.bind_eq_some_iff] at h
  obtain ⟨_, _, ⟨b, m1⟩, h1, h⟩ := h
  have := walkAngTo_length (fun _ _ _ h => colLoop_length h) _ h1
  rw [zero_length] at this
  split_ifs at h
  · rw [← Option.some.inj h, this]
  · simp only [Option.bind_eq_some_iff] at h
    obtain ⟨_, _, h⟩ := h
    rw [walkBelow_length (fun _ _ _ h => colLoop_length h) _ h, this]

theorem com_sized [DecidableEq K] : IK.KeepsSize (IKFns.com (K := K)) := by
  intro c a m J h
  simp only [IKFns.com, com] at h
  refine (foldlM_length (fun m i m' h => ?_) _ h).trans (zero_length m)
  simp only [comLink, Option.bind_eq_bind, Option.bind_eq_some_iff] at h
  obtain ⟨l, _, h⟩ := h
  split_ifs at h
  · rw [← Option.some.inj h]
  · simp only [Option.bind_eq_some_iff] at h
    obtain ⟨_, _, h⟩ := h
    rw [walk_length (fun _ _ _ h => colLoop_length h) _ h]

theorem am_length {c : Chain K} {p : Vec3 K} {m J : Mat K} (h : am c p m = some J) : J.length = m.length := by
  refine (foldlM_length (fun m i m' h => ?_) _ h).trans (zero_length m)
  simp only [linkAM', Option.bind_eq_bind, Option.bind_eq_some_iff] at h
  obtain ⟨l, _, _, _, h⟩ := h
  rw [walk_length (fun _ _ _ h => amLoop_length h) _ h]

theorem am_sized (acm : IKAcm K → Vec3 K → IKAcm K × Vec3 K) : IK.KeepsSize (IKFns.am acm) :=
  fun _ _ _ _ h => am_length h

theorem amCOM_sized (acm : IKAcm K → Vec3 K → IKAcm K × Vec3 K) : IK.KeepsSize (IKFns.amCOM acm) :=
  fun _ _ _ _ h => am_length h

end Roki.Jacobi
