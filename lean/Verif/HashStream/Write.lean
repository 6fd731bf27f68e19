import Verif.HashStream.Lemmas

/-! # Lemmas about the output stream -/

namespace Verif.HashStream

theorem encodes_exists (n : Nat) (hn : 0 < n) (hash : Bytes → Bytes) : ∀ (k : Nat) (d : Bytes), d.length ≤ k →
    ∃ e, Encodes n hash d e
  | 0, d, h => by
    have : d = [] := by cases d; rfl; simp at h
    subst this; exact ⟨[], .nil⟩
  | k + 1, d, h => by
    by_cases h1 : d = []
    · subst h1; exact ⟨[], .nil⟩
    · by_cases h2 : d.length ≤ n
      · exact ⟨_, .last h1 h2⟩
      · obtain ⟨e, he⟩ := encodes_exists n hn hash k (d.drop n) (by simp <;> omega)
        refine ⟨d.take n ++ hash (d.take n) ++ e, ?_⟩
        have h3 : Encodes n hash (d.take n ++ d.drop n) (d.take n ++ hash (d.take n) ++ e) :=
          .more (by simp <;> omega) he
        rwa [List.take_append_drop] at h3

/-- `e` is a sequence of full blocks with the contents `w`. -/
def Full (n : Nat) (hash : Bytes → Bytes) (w e : Bytes) : Prop :=
  ∀ d' e', Encodes n hash d' e' → Encodes n hash (w ++ d') (e ++ e')

theorem Full.nil {n hash} : Full n hash [] [] := fun _ _ h => h

theorem Full.cons {n hash p w e} (hp : p.length = n) (h : Full n hash w e) :
    Full n hash (p ++ w) (p ++ hash p ++ e) := by
  intro d' e' h'
  rw [List.append_assoc, List.append_assoc]
  exact .more hp (h _ _ h')

theorem Encodes.nil_inv {n hash e} (hn : 0 < n) (h : Encodes n hash [] e) : e = [] := by
  generalize hd : ([] : Bytes) = d at h
  cases h with
  | nil => rfl
  | last h1 _ => exact absurd hd.symm h1
  | more h1 _ =>
    have := congrArg List.length hd
    simp at this
    omega

theorem Encodes.unique {n hash} (hn : 0 < n) {d e1 : Bytes} (h1 : Encodes n hash d e1) :
    ∀ {e2}, Encodes n hash d e2 → e1 = e2 := by
  induction h1 with
  | nil => intro e2 h2; exact (Encodes.nil_inv hn h2).symm
  | last hp hl =>
    rename_i p
    intro e2 h2
    generalize hd : p = d at h2
    cases h2 with
    | nil => exact absurd hd hp
    | last _ _ => subst hd; rfl
    | more h3 h4 =>
      rename_i q d e
      have : d = [] := by
        have := congrArg List.length hd
        simp at this
        exact List.eq_nil_of_length_eq_zero (by omega)
      subst this
      rw [Encodes.nil_inv hn h4]
      simp at hd ⊢
      try rw [hd]
  | more hp _ ih =>
    rename_i p d e _
    intro e2 h2
    generalize hd : p ++ d = dd at h2
    cases h2 with
    | nil =>
      have := congrArg List.length hd
      simp at this
      simp [this] at hp
      omega
    | last h3 h4 =>
      have : d = [] := by
        have := congrArg List.length hd
        simp at this
        exact List.eq_nil_of_length_eq_zero (by omega)
      subst this
      rw [ih .nil]
      simp at hd ⊢
      rw [hd]
    | more h3 h4 =>
      rename_i q d2 e2
      obtain ⟨h5, h6⟩ := List.append_inj hd (by omega)
      subst h5 h6
      rw [ih h4]

/-- There is room for `k` bytes. -/
def Sink.Fits (s : Sink) (k : Nat) : Prop := ∀ r, s.room = some r → k ≤ r

/-- `b` has been stored. -/
def Sink.adv (s : Sink) (b : Bytes) : Sink := ⟨s.data ++ b, s.room.map (· - b.length)⟩

theorem Sink.write_fits {s : Sink} {b : Bytes} (h : s.Fits b.length) : s.write b = (s.adv b, .ok ()) := by
  obtain ⟨d, r⟩ := s
  cases r with
  | none => rfl
  | some r => simp only [Sink.write, Sink.adv]; rw [if_pos (h r rfl)]; rfl

theorem Sink.write_unfit {s : Sink} {b : Bytes} {r : Nat} (hr : s.room = some r) (h : r < b.length) :
    s.write b = (⟨s.data ++ b.take r, some 0⟩, .throw .io) := by
  simp only [Sink.write, hr]
  rw [if_neg (by omega)]

theorem Sink.adv_adv (s : Sink) (a b : Bytes) : (s.adv a).adv b = s.adv (a ++ b) := by
  obtain ⟨d, r⟩ := s
  cases r with
  | none => simp [Sink.adv]
  | some r => simp [Sink.adv]; omega

theorem Sink.adv_fits {s : Sink} {a : Bytes} {k : Nat} (h1 : s.Fits a.length) (h2 : (s.adv a).Fits k) :
    s.Fits (a.length + k) := by
  intro r hr
  have := h1 r hr
  have := h2 (r - a.length) (by simp [Sink.adv, hr])
  omega

theorem Sink.adv_nil (s : Sink) : s.adv [] = s := by
  obtain ⟨d, r⟩ := s
  cases r <;> simp [Sink.adv]

theorem Sink.not_fits {s : Sink} {k : Nat} (h : ¬ s.Fits k) : ∃ r, s.room = some r ∧ r < k := by
  unfold Sink.Fits at h
  cases hr : s.room with
  | none => exact absurd (fun r h => by simp [hr] at h) h
  | some r =>
    refine ⟨r, rfl, ?_⟩
    refine Nat.lt_of_not_le fun h2 => h fun r' hr' => ?_
    rw [hr] at hr'
    cases hr'
    exact h2

theorem flush_fits {c : Cfg} {o : Out} (hb : o.buf ≠ []) (h : o.sink.Fits (o.buf ++ c.hash o.buf).length) :
    flush c o = (⟨o.sink.adv (o.buf ++ c.hash o.buf), []⟩, .ok ()) := by
  unfold flush
  rw [if_pos (by simpa using hb)]
  dsimp only
  rw [Sink.write_fits h]

theorem flush_unfit {c : Cfg} {o : Out} (hb : o.buf ≠ []) {r : Nat} (hr : o.sink.room = some r)
    (h : r < (o.buf ++ c.hash o.buf).length) :
    flush c o = (⟨⟨o.sink.data ++ (o.buf ++ c.hash o.buf).take r, some 0⟩, o.buf ++ c.hash o.buf⟩, .throw .io) := by
  unfold flush
  rw [if_pos (by simpa using hb)]
  dsimp only
  rw [Sink.write_unfit hr h]

theorem writeLoop_spec {c : Cfg} (hc : c.Good) : ∀ (fuel : Nat) (o : Out) (rest : Bytes),
    o.buf.length < c.blockSize - c.size → rest.length < fuel →
    (∃ w e buf', Full (c.blockSize - c.size) c.hash w e ∧ o.buf ++ rest = w ++ buf' ∧
      buf'.length < c.blockSize - c.size ∧ o.sink.Fits e.length ∧
      writeLoop c fuel o rest = (⟨o.sink.adv e, buf'⟩, .ok (some ()))) ∨
    (∃ w e rest' r s' b, Full (c.blockSize - c.size) c.hash w e ∧ o.buf ++ rest = w ++ rest' ∧
      o.sink.room = some r ∧ r < e.length ∧ s' = ⟨o.sink.data ++ e.take r, some 0⟩ ∧ b ≠ [] ∧
      writeLoop c fuel o rest = (⟨s', b⟩, .throw .io))
  | 0, _, _, _, h => by omega
  | fuel + 1, o, rest, hb, hf => by
    by_cases h1 : o.buf.length + rest.length < c.blockSize - c.size
    · left
      refine ⟨[], [], o.buf ++ rest, .nil, by simp, by simpa using h1, fun _ _ => by simp, ?_⟩
      rw [Sink.adv_nil]
      have hm : min (c.blockSize - c.size - o.buf.length) rest.length = rest.length := by omega
      simp only [writeLoop, hm, List.take_length, List.length_append]
      rw [if_neg (show ¬ o.buf.length + rest.length = c.blockSize - c.size by omega)]
      simp
    · have hm : min (c.blockSize - c.size - o.buf.length) rest.length = c.blockSize - c.size - o.buf.length := by omega
      generalize hk : c.blockSize - c.size - o.buf.length = k at *
      have hlen : (o.buf ++ rest.take k).length = c.blockSize - c.size := by simp <;> omega
      generalize hp : o.buf ++ rest.take k = p at *
      have hpne : p ≠ [] := by intro h; subst h; simp at hlen; omega
      have hsplit : o.buf ++ rest = p ++ rest.drop k := by rw [← hp, List.append_assoc, List.take_append_drop]
      have hstep : writeLoop c (fuel + 1) o rest = (match flush c ⟨o.sink, p⟩ with
        | (o, .ok ()) => if (rest.drop k).length ≠ 0 then writeLoop c fuel o (rest.drop k) else (o, .ok (some ()))
        | (o, .throw e) => (o, .throw e)
        | (o, .ub) => (o, .ub)) := by
        simp only [writeLoop, hk, hm, hp, hlen, if_true] <;>
          rcases flush c ⟨o.sink, p⟩ with ⟨o', _ | _ | _⟩ <;> rfl
      by_cases hfit : o.sink.Fits (p ++ c.hash p).length
      · rw [flush_fits (o := ⟨o.sink, p⟩) hpne hfit] at hstep
        simp only at hstep
        by_cases h2 : (rest.drop k).length ≠ 0
        · rw [if_pos h2] at hstep
          unfold Cfg.Good at hc
          rcases writeLoop_spec hc fuel ⟨o.sink.adv (p ++ c.hash p), []⟩ (rest.drop k) (by simp <;> omega)
              (by simp <;> omega) with
            ⟨w, e, buf', h3, h4, h5, h6, h7⟩ | ⟨w, e, rest', r, s', b, h3, h4, h5, h6, h7, h8, h9⟩
          · left
            refine ⟨p ++ w, p ++ c.hash p ++ e, buf', h3.cons hlen, ?_, h5, ?_, ?_⟩
            · rw [hsplit, List.append_assoc, ← h4]; rfl
            · rw [List.length_append]; exact Sink.adv_fits hfit h6
            · rw [hstep, h7, Sink.adv_adv]
          · right
            obtain ⟨r0, hr0⟩ : ∃ r0, o.sink.room = some r0 := by
              cases hr : o.sink.room with
              | none => simp [Sink.adv, hr] at h5
              | some r0 => exact ⟨r0, rfl⟩
            have h10 : r = r0 - (p ++ c.hash p).length := by simpa [Sink.adv, hr0] using h5.symm
            have h11 := hfit r0 hr0
            refine ⟨p ++ w, p ++ c.hash p ++ e, rest', r0, s', b, h3.cons hlen, ?_, hr0, ?_, ?_, h8, ?_⟩
            · rw [hsplit, List.append_assoc, ← h4]; rfl
            · rw [List.length_append]; omega
            · rw [h7]
              simp only [Sink.adv]
              rw [List.take_append, List.take_of_length_le h11, h10, List.append_assoc]
            · rw [hstep, h9]
        · rw [if_neg h2] at hstep
          left
          refine ⟨p, p ++ c.hash p, [], ?_, ?_, by simp; unfold Cfg.Good at hc; omega, hfit, hstep⟩
          · have := Full.cons (hash := c.hash) hlen Full.nil
            simpa using this
          · rw [hsplit]
            congr 1
            exact List.eq_nil_of_length_eq_zero (by omega)
      · right
        obtain ⟨r, hr, hlt⟩ := Sink.not_fits hfit
        rw [flush_unfit (o := ⟨o.sink, p⟩) hpne hr hlt] at hstep
        refine ⟨p, p ++ c.hash p, rest.drop k, r, _, p ++ c.hash p, ?_, hsplit, hr, hlt, rfl, by simp [hpne], hstep⟩
        have := Full.cons (hash := c.hash) hlen Full.nil
        simpa using this

theorem destroy_stuck {c : Cfg} {d : Bytes} {b : Bytes} (hb : b ≠ []) :
    destroy c ⟨⟨d, some 0⟩, b⟩ = (⟨d, some 0⟩, .terminated) := by
  unfold destroy
  rw [flush_unfit (o := ⟨⟨d, some 0⟩, b⟩) hb (r := 0) rfl (by
    simp only [List.length_append]
    have := List.length_pos_iff.2 hb
    omega)]
  simp

/-- Everything a function with a local output stream does. -/
theorem writeAll_spec {c : Cfg} (hc : c.Good) : ∀ (bs : List Bytes) (o : Out), o.buf.length < c.blockSize - c.size →
    ∃ e, Encodes (c.blockSize - c.size) c.hash (o.buf ++ bs.flatten) e ∧
      (o.sink.Fits e.length → writeAll c o bs = (o.sink.adv e, .returned)) ∧
      (∀ r, o.sink.room = some r → r < e.length →
        writeAll c o bs = (⟨o.sink.data ++ e.take r, some 0⟩, .terminated))
  | [], o, hb => by
    by_cases h : o.buf = []
    · refine ⟨[], by simpa [h] using Encodes.nil, fun _ => ?_, fun r _ hr => by simp at hr⟩
      simp only [writeAll, destroy, flush, h, Sink.adv_nil]
      simp
    · refine ⟨o.buf ++ c.hash o.buf, by simpa using Encodes.last h (by omega), fun hf => ?_, fun r hr hl => ?_⟩
      · simp only [writeAll, destroy, flush_fits h hf]
      · simp only [writeAll, destroy, flush_unfit h hr hl]
  | b :: bs, o, hb => by
    have hw : write c o b = writeLoop c (b.length + 1) o b := by unfold write; rw [if_pos hb]
    have hn : 0 < c.blockSize - c.size := by omega
    rcases writeLoop_spec hc (b.length + 1) o b hb (by omega) with
      ⟨w, e, buf', h3, h4, h5, h6, h7⟩ | ⟨w, e, rest', r, s', b', h3, h4, h5, h6, h7, h8, h9⟩
    · obtain ⟨e2, he2, hfit, hunfit⟩ := writeAll_spec hc bs ⟨o.sink.adv e, buf'⟩ h5
      have hstep : writeAll c o (b :: bs) = writeAll c ⟨o.sink.adv e, buf'⟩ bs := by
        simp only [writeAll, hw, h7]
      refine ⟨e ++ e2, ?_, fun hf => ?_, fun r hr hl => ?_⟩
      · have := h3 _ _ he2
        rw [List.flatten_cons, ← List.append_assoc, h4]
        rw [List.append_assoc]
        exact this
      · rw [hstep, hfit, Sink.adv_adv]
        intro r hr
        simp only [Sink.adv] at hr
        cases hr0 : o.sink.room with
        | none => simp [hr0] at hr
        | some r0 =>
          have := hf r0 hr0
          simp [hr0] at hr
          simp only [List.length_append] at this
          omega
      · have := h6 r hr
        rw [hstep, hunfit (r - e.length) (by simp [Sink.adv, hr]) (by simp only [List.length_append] at hl; omega)]
        simp only [Sink.adv]
        rw [List.take_append, List.take_of_length_le this, List.append_assoc]
    · obtain ⟨e2, he2⟩ := encodes_exists _ hn c.hash _ (rest' ++ bs.flatten) (Nat.le_refl _)
      refine ⟨e ++ e2, ?_, fun hf => ?_, fun r' hr' hl => ?_⟩
      · have := h3 _ _ he2
        rw [List.flatten_cons, ← List.append_assoc, h4]
        rw [List.append_assoc]
        exact this
      · have := hf r h5
        simp only [List.length_append] at this
        omega
      · rw [h5] at hr'
        cases hr'
        simp only [writeAll, hw, h9]
        rw [h7, destroy_stuck h8, List.take_append_of_le_length (by omega)]

end Verif.HashStream
