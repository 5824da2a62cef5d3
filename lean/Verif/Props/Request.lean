import Verif.Model.Request
set_option autoImplicit false
/-
C56: packing and unpacking.
-/
namespace Resmix.Rrpc
variable {ν ω : Type}

theorem step_packed (K : ReqCodec ν ω) (r : Request ν ω) (b : Bytes) (h : r.marshaledArgs = some b) (op : ReqOp ν) :
    (r.step K op).1.marshaledArgs = some b ∧ (op = .pack → r.step K op = (r, .ok ())) := by
  cases op with
  | pack => simp [Request.step, Request.pack, Request.packWithBuffer, h]
  | unpack =>
    refine ⟨?_, by simp⟩
    simp only [Request.step, Request.unpack]
    split
    · exact h
    · split
      · exact h
      · split <;> exact h
  | cancel => exact ⟨h, by simp⟩
  | respond b' => exact ⟨h, by simp⟩
  | setArgs v => exact ⟨h, by simp⟩

theorem run_packed (K : ReqCodec ν ω) (ops : List (ReqOp ν)) (r : Request ν ω) (b : Bytes) (h : r.marshaledArgs = some b) :
    (r.run K ops).1.marshaledArgs = some b := by
  induction ops generalizing r with
  | nil => exact h
  | cons op ops ih => exact ih _ (step_packed K r b h op).1

theorem step_unpacked (K : ReqCodec ν ω) (r : Request ν ω) (h : r.isUnpacked = true) (op : ReqOp ν) :
    (r.step K op).1.isUnpacked = true ∧ (r.step K op).1.reply = r.reply ∧ (op = .unpack → r.step K op = (r, .ok ())) := by
  cases op with
  | pack =>
    refine ⟨?_, ?_, by simp⟩ <;>
    · simp only [Request.step, Request.pack, Request.packWithBuffer]
      split
      · first | exact h | rfl
      · split
        · first | exact h | rfl
        · split <;> first | exact h | rfl
  | unpack => simp [Request.step, Request.unpack, h]
  | cancel => exact ⟨h, rfl, by simp⟩
  | respond b' => exact ⟨h, rfl, by simp⟩
  | setArgs v => exact ⟨h, rfl, by simp⟩

theorem run_unpacked (K : ReqCodec ν ω) (ops : List (ReqOp ν)) (r : Request ν ω) (h : r.isUnpacked = true) :
    (r.run K ops).1.isUnpacked = true ∧ (r.run K ops).1.reply = r.reply := by
  induction ops generalizing r with
  | nil => exact ⟨h, rfl⟩
  | cons op ops ih =>
    obtain ⟨h1, h2, -⟩ := step_unpacked K r h op
    obtain ⟨i1, i2⟩ := ih _ h1
    exact ⟨i1, i2.trans h2⟩

/-- C56, packing. Until its first successful packing a request is not packed; a failed packing changes nothing: with a cancelled context it fails
with Canceled, otherwise with the encoder's error. The first successful one stores the encoding of the arguments of that moment, and no
later operations (packing again, new arguments, a cancellation, responses) change it; packing again then always succeeds and changes
nothing. -/
theorem C56_pack_once (K : ReqCodec ν ω) (r : Request ν ω) (hr : r.marshaledArgs = none) :
    (r.cancelled = true → r.pack K = (r, .error (.err .canceled "context canceled"))) ∧
    (r.cancelled = false → ∀ e, K.enc r.args = .error e → r.pack K = (r, .error e)) ∧
    (r.cancelled = false → ∀ b, K.enc r.args = .ok b → (r.pack K).2 = .ok () ∧
      ∀ ops, ((r.pack K).1.run K ops).1.marshaledArgs = some b ∧ ((r.pack K).1.run K ops).1.pack K = (((r.pack K).1.run K ops).1, .ok ())) := by
  refine ⟨?_, ?_, ?_⟩
  · intro h; simp [Request.pack, Request.packWithBuffer, hr, h, ctxCanceled]
  · intro h e he; simp [Request.pack, Request.packWithBuffer, hr, h, he]
  · intro h b hb
    have h0 : (r.pack K).1.marshaledArgs = some b ∧ (r.pack K).2 = .ok () := by simp [Request.pack, Request.packWithBuffer, hr, h, hb]
    refine ⟨h0.2, fun ops => ?_⟩
    have := run_packed K ops _ b h0.1
    exact ⟨this, (step_packed K _ b this .pack).2 rfl⟩

/-- C56, unpacking. Until its first successful unpacking a request is not unpacked: with a cancelled context it fails with Canceled and changes
nothing; otherwise the reply variable gets what the decoder makes of the response received last. After the first success no later operations
(further responses, unpacking again) change the reply; unpacking again then always succeeds and changes nothing. -/
theorem C56_unpack_once (K : ReqCodec ν ω) (r : Request ν ω) (hr : r.isUnpacked = false) (b : Bytes) (hb : r.marshaledReply = some b) :
    (r.cancelled = true → r.unpack K = (r, .error (.err .canceled "context canceled"))) ∧
    (r.cancelled = false → (r.unpack K).1.reply = (K.dec b r.reply).1 ∧ (r.unpack K).2 = (K.dec b r.reply).2 ∧
      ((r.unpack K).2 ≠ .ok () → (r.unpack K).1.isUnpacked = false) ∧
      ((r.unpack K).2 = .ok () → ∀ ops, ((r.unpack K).1.run K ops).1.reply = (K.dec b r.reply).1 ∧
        ((r.unpack K).1.run K ops).1.unpack K = (((r.unpack K).1.run K ops).1, .ok ()))) := by
  refine ⟨?_, ?_⟩
  · intro h; simp [Request.unpack, hr, h, ctxCanceled]
  · intro h
    cases hd : K.dec b r.reply with
    | mk v res =>
      cases res with
      | error e =>
        have hu : r.unpack K = ({ r with reply := v }, .error e) := by simp [Request.unpack, hr, h, hb, hd]
        rw [hu]
        exact ⟨rfl, rfl, fun _ => hr, fun h => by cases h⟩
      | ok u =>
        have hu : r.unpack K = ({ r with reply := v, isUnpacked := true }, .ok ()) := by simp [Request.unpack, hr, h, hb, hd]
        rw [hu]
        refine ⟨rfl, rfl, fun h => absurd rfl h, fun _ ops => ?_⟩
        obtain ⟨h1, h2⟩ := run_unpacked K ops { r with reply := v, isUnpacked := true } rfl
        exact ⟨h2, (step_unpacked K _ h1 .unpack).2.2 rfl⟩

/-- C56, reuse. A request used for one call and then, with new arguments, for a second one sends the bytes of the first again and keeps the first
reply, whatever the second response is; both calls report success. -/
theorem C56_reuse (K : ReqCodec ν ω) (a1 a2 : ν) (old v : ω) (method uuid : Str) (b1 r1 r2 : Bytes) (h1 : K.enc a1 = .ok b1) (h2 : K.dec r1 old = (v, .ok ())) :
    let res := (Request.new a1 old method uuid).run K [.pack, .respond r1, .unpack, .setArgs a2, .pack, .respond r2, .unpack]
    res.1.marshaledArgs = some b1 ∧ res.1.reply = v ∧ ∀ x ∈ res.2, x = .ok () := by
  simp [Request.run, Request.step, Request.pack, Request.packWithBuffer, Request.unpack, Request.new, h1, h2]

/-- A codec and a request that meet the hypotheses. -/
example : ∃ (K : ReqCodec Bytes Bytes) (r : Request Bytes Bytes), r.marshaledArgs = none ∧ r.isUnpacked = false ∧ r.marshaledReply = some [1] ∧
    K.enc r.args = .ok [7] ∧ K.dec [1] r.reply = ([1], .ok ()) :=
  ⟨⟨fun a => .ok a, fun b _ => (b, .ok ())⟩, { Request.new [7] [] [] [] with marshaledReply := some [1] }, rfl, rfl, rfl, rfl, rfl⟩

end Resmix.Rrpc
