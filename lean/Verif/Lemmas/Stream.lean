import Verif.Lemmas.Bytes
/-!
Generic simulation argument: an unpacker that, one `async_read_some` at a time, behaves like an ideal
incremental decoder does so for every segmentation of the stream.
-/
set_option autoImplicit false
namespace StAsio

/-- An ideal stream decoder: messages found so far and either the pending bytes (`some`) or "malformed" (`none`). -/
abbrev Decoder := Bytes → List Bytes × Option Bytes

/-- Decoding can be done incrementally. -/
structure Incremental (dec : Decoder) : Prop where
  nil : dec [] = ([], some [])
  more : ∀ a b ms p, dec a = (ms, some p) → dec (a ++ b) = (ms ++ (dec (p ++ b)).1, (dec (p ++ b)).2)
  bad : ∀ a b ms, dec a = (ms, none) → dec (a ++ b) = (ms, none)

def msgs (ms : List Bytes) : List RxEvent := ms.map .msg

/-- One `async_read_some` behaves like the decoder. -/
structure Simulates {σ} (o : UnpackerOps σ) (cwf : Bool) (dec : Decoder) (R : Conn σ → Bytes → Prop) : Prop where
  reading : ∀ c p, R c p → ∃ cap got want, c.ph = .reading cap got want ∧ 0 < want ∧ got < cap
  step : ∀ c p cap got want d, R c p → c.ph = .reading cap got want → d ≠ [] → d.length ≤ want → got + d.length ≤ cap →
    ∃ c', readSome o cwf c cap got d = some c' ∧
      match dec (p ++ d) with
      | (ms, some p') => c'.log = c.log ++ msgs ms ∧ R c' p'
      | (ms, none) => c'.log = c.log ++ msgs ms ++ [.unpackError] ∧ R c' []

/-- The state of reception after the bytes `s`, relative to the log `l0` at the start. -/
def After {σ} (dec : Decoder) (R : Conn σ → Bytes → Prop) (l0 : List RxEvent) (s : Bytes) (c : Conn σ) : Prop :=
  match dec s with
  | (ms, some p) => c.log = l0 ++ msgs ms ∧ R c p
  | (ms, none) => (∃ t, c.log = l0 ++ msgs ms ++ [.unpackError] ++ t) ∧ ∃ p, R c p

theorem After.inv {σ} {dec : Decoder} {R : Conn σ → Bytes → Prop} {l0 s c} (h : After dec R l0 s c) : ∃ p, R c p := by
  unfold After at h
  split at h
  · exact ⟨_, h.2⟩
  · exact h.2

theorem feedN_after {σ} {o : UnpackerOps σ} {cwf : Bool} {dec : Decoder} {R : Conn σ → Bytes → Prop}
    (hi : Incremental dec) (hs : Simulates o cwf dec R) :
    ∀ (fuel : Nat) (c : Conn σ) (l0 : List RxEvent) (s d : Bytes), d.length ≤ fuel → After dec R l0 s c →
      ∃ c', feedN o cwf fuel c d = some c' ∧ After dec R l0 (s ++ d) c' := by
  intro fuel
  induction fuel with
  | zero =>
    intro c l0 s d hd h
    have : d = [] := List.length_eq_zero_iff.mp (by omega)
    subst this
    exact ⟨c, rfl, by simpa using h⟩
  | succ fuel ih =>
    intro c l0 s d hd h
    match d, hd with
    | [], _ => exact ⟨c, by simp [feedN], by simpa using h⟩
    | x :: xs, hd =>
      obtain ⟨p, hp⟩ := h.inv
      obtain ⟨cap, got, want, hph, hw, hg⟩ := hs.reading c p hp
      let n := min (min want (cap - got)) (x :: xs).length
      have hn1 : 1 ≤ n := by simp only [n, List.length_cons]; omega
      have hnl : ((x :: xs).take n).length = n := by simp only [List.length_take]; omega
      have hne : (x :: xs).take n ≠ [] := by
        intro h0; rw [h0] at hnl; simp at hnl; omega
      have key : ∀ p, R c p → ∃ c', readSome o cwf c cap got ((x :: xs).take n) = some c' ∧
          match dec (p ++ (x :: xs).take n) with
          | (ms, some p') => c'.log = c.log ++ msgs ms ∧ R c' p'
          | (ms, none) => c'.log = c.log ++ msgs ms ++ [.unpackError] ∧ R c' [] := by
        intro p hp
        exact hs.step c p cap got want _ hp hph hne (by omega) (by omega)
      have hstep : ∃ c', readSome o cwf c cap got ((x :: xs).take n) = some c' ∧
          After dec R l0 (s ++ (x :: xs).take n) c' := by
        unfold After at h
        cases hdec : dec s with
        | mk ms t =>
          rw [hdec] at h
          cases t with
          | some q =>
            obtain ⟨hl, hq⟩ := h
            obtain ⟨c', hc', hm⟩ := key q hq
            refine ⟨c', hc', ?_⟩
            unfold After
            rw [hi.more s _ ms q hdec]
            split at hm
            · next ms' p' heq =>
              simp only [heq]
              exact ⟨by rw [hm.1, hl]; simp [msgs], hm.2⟩
            · next ms' heq =>
              simp only [heq]
              exact ⟨⟨[], by rw [hm.1, hl]; simp [msgs]⟩, _, hm.2⟩
          | none =>
            obtain ⟨⟨t, hl⟩, q, hq⟩ := h
            obtain ⟨c', hc', hm⟩ := key q hq
            refine ⟨c', hc', ?_⟩
            unfold After
            rw [hi.bad s _ ms hdec]
            split at hm
            · next ms' p' _ => exact ⟨⟨t ++ msgs ms', by rw [hm.1, hl]; simp⟩, _, hm.2⟩
            · next ms' _ => exact ⟨⟨t ++ msgs ms' ++ [.unpackError], by rw [hm.1, hl]; simp⟩, _, hm.2⟩
      obtain ⟨c', hc', ha⟩ := hstep
      have hfuel : ((x :: xs).drop n).length ≤ fuel := by
        simp only [List.length_drop]; omega
      obtain ⟨c'', hc'', ha'⟩ := ih c' l0 _ _ hfuel ha
      refine ⟨c'', ?_, ?_⟩
      · have hfe : feedN o cwf (fuel + 1) c (x :: xs) =
            (readSome o cwf c cap got ((x :: xs).take n)).bind (fun c => feedN o cwf fuel c ((x :: xs).drop n)) := by
          simp [feedN, hph, n, bind]
        rw [hfe, hc']
        exact hc''
      · rw [List.append_assoc, List.take_append_drop] at ha'
        exact ha'

theorem feedAll_after {σ} {o : UnpackerOps σ} {cwf : Bool} {dec : Decoder} {R : Conn σ → Bytes → Prop}
    (hi : Incremental dec) (hs : Simulates o cwf dec R) :
    ∀ (ds : List Bytes) (c : Conn σ) (l0 : List RxEvent) (s : Bytes), After dec R l0 s c →
      ∃ c', feedAll o cwf c ds = some c' ∧ After dec R l0 (s ++ ds.flatten) c' := by
  intro ds
  induction ds with
  | nil => intro c l0 s h; exact ⟨c, rfl, by simpa using h⟩
  | cons d ds ih =>
    intro c l0 s h
    obtain ⟨c1, h1, ha1⟩ := feedN_after hi hs d.length c l0 s d (Nat.le_refl _) h
    obtain ⟨c2, h2, ha2⟩ := ih c1 l0 _ ha1
    refine ⟨c2, ?_, by simpa [List.append_assoc] using ha2⟩
    simp [feedAll, feed, h1, h2]

theorem receive_after {σ} {o : UnpackerOps σ} {cwf : Bool} {dec : Decoder} {R : Conn σ → Bytes → Prop} {u0 : σ}
    (hi : Incremental dec) (hs : Simulates o cwf dec R)
    (h0 : ∃ c0, startRead o u0 [] = some c0 ∧ c0.log = [] ∧ R c0 []) (ds : List Bytes) :
    ∃ c, receive o cwf u0 ds = some c ∧ After dec R [] ds.flatten c := by
  obtain ⟨c0, hc0, hl0, hR0⟩ := h0
  have ha : After dec R [] [] c0 := by
    unfold After; rw [hi.nil]; exact ⟨by simp [hl0, msgs], hR0⟩
  obtain ⟨c, hc, hA⟩ := feedAll_after hi hs ds c0 [] [] ha
  exact ⟨c, by simp [receive, hc0, hc], by simpa using hA⟩

/-- Reception that conforms to the decoder is never stalled. -/
theorem After.not_stalled {σ} {o : UnpackerOps σ} {cwf : Bool} {dec : Decoder} {R : Conn σ → Bytes → Prop} {l0 s c}
    (hs : Simulates o cwf dec R) (h : After dec R l0 s c) : c.ph ≠ .stalled := by
  obtain ⟨p, hp⟩ := h.inv
  obtain ⟨_, _, _, h, _⟩ := hs.reading c p hp
  rw [h]; simp

end StAsio
