import Verif.Proofs.CLzmaHeap
import Verif.Proofs.CSafe
import Verif.Spec.CApi
import Verif.Spec.CInPlaceApi
/-
The process functions of the C library use the LZMA reader in no other way than `Use` says.
-/
namespace Detools.LzmaHeap

theorem given_append (us vs : List Use) : given (us ++ vs) = given us + given vs := by
  induction us with
  | nil => simp [given]
  | cons u us ih => cases u <;> simp only [List.cons_append, given, ih] <;> omega

/-- Uses of at most `T` bytes in chunks. -/
def Fits (T : Nat) (us : List Use) : Prop :=
  given us ≤ T ∧ (∀ c, Use.chunk c ∈ us → c.offset ≤ c.buf.length) ∧ ∀ size, Use.decompress size ∈ us → 0 < size ∧ size ≤ 128

/-- The uses `us` lead to the reader `a` and the chunk `c` with no negative result. -/
def Reaches (L : LzmaLib) (us : List Use) (ps : List DRes) (a : CLzma) (c : Chunk) : Prop :=
  ∀ vs rs a', plainUses L vs a c = .ok (rs, a') → plainUses L (us ++ vs) { dec := L.start } {} = .ok (ps ++ rs, a')

theorem Reaches.done {L us ps a c} (h : Reaches L us ps a c) : plainUses L us { dec := L.start } {} = .ok (ps, a) := by
  have := h [] [] a rfl
  rwa [List.append_nil, List.append_nil] at this

theorem Reaches.start (L : LzmaLib) : Reaches L [] [] { dec := L.start } {} := fun vs rs a' h => by simpa using h

theorem Reaches.chunk {L us ps a c} (h : Reaches L us ps a c) (c' : Chunk) : Reaches L (us ++ [.chunk c']) ps a c' := by
  intro vs rs a' hv
  rw [List.append_assoc]
  exact h (.chunk c' :: vs) rs a' hv

theorem Reaches.decompress {L us ps a c n r a' c'} (h : Reaches L us ps a c) (hd : lzmaDecompress L a c n n = .ok (r, a', c'))
    (hr : ∀ e, r ≠ .fail e) : Reaches L (us ++ [.decompress n]) (ps ++ [r]) a' c' := by
  intro vs rs a2 hv
  rw [List.append_assoc, List.append_assoc]
  refine h (.decompress n :: vs) (r :: rs) a2 ?_
  simp only [plainUses, hd, Bind.bind, Except.bind]
  cases r with
  | fail e => exact absurd rfl (hr e)
  | ok d => simp only [hv]
  | more => simp only [hv]

theorem Reaches.fail {L us ps a c n e a' c'} (h : Reaches L us ps a c) (hd : lzmaDecompress L a c n n = .ok (.fail e, a', c')) :
    plainUses L (us ++ [.decompress n]) { dec := L.start } {} = .ok (ps ++ [.fail e], a') :=
  h [.decompress n] [.fail e] a' (by simp only [plainUses, hd, Bind.bind, Except.bind])

theorem Fits.chunk {T us} (h : Fits T us) {c : Chunk} (hc : c.offset ≤ c.buf.length) (n : Nat) (hn : c.buf.length - c.offset ≤ n) :
    Fits (T + n) (us ++ [.chunk c]) := by
  refine ⟨by rw [given_append]; simp only [given]; have := h.1; omega, fun c' hc' => ?_, fun k hk => ?_⟩
  · rcases List.mem_append.1 hc' with q | q
    · exact h.2.1 c' q
    · cases List.mem_singleton.1 q; exact hc
  · rcases List.mem_append.1 hk with q | q
    · exact h.2.2 k q
    · cases List.mem_singleton.1 q

theorem Fits.decompress {T us} (h : Fits T us) {n : Nat} (h0 : 0 < n) (hn : n ≤ 128) : Fits T (us ++ [.decompress n]) := by
  refine ⟨by rw [given_append]; simp only [given]; have := h.1; omega, fun c' hc' => ?_, fun k hk => ?_⟩
  · rcases List.mem_append.1 hc' with q | q
    · exact h.2.1 c' q
    · cases List.mem_singleton.1 q
  · rcases List.mem_append.1 hk with q | q
    · exact h.2.2 k q
    · cases List.mem_singleton.1 q; exact ⟨h0, hn⟩

/-- The reader and the chunk of an object that has not failed. -/
def Live (L : LzmaLib) (T : Nat) (rd : Option CReader) (c : Chunk) : Prop :=
  (rd = none → c.offset ≤ c.buf.length ∧ c.buf.length ≤ T) ∧
  ∀ a, rd = some (.lzma a) → ∃ us ps, Fits T us ∧ Reaches L us ps a c

/-- The reader of any object. -/
def Past (L : LzmaLib) (T : Nat) (rd : Option CReader) : Prop :=
  ∀ a, rd = some (.lzma a) → ∃ us ps, Fits T us ∧ plainUses L us { dec := L.start } {} = .ok (ps, a)

theorem Live.past {L T rd c} (h : Live L T rd c) : Past L T rd := fun a ha => by
  obtain ⟨us, ps, k1, k2⟩ := h.2 a ha
  exact ⟨us, ps, k1, k2.done⟩

theorem Live.setChunk {L T rd c} (h : Live L T rd c) (p : Bytes) : Live L (T + p.length) rd { buf := p, offset := 0 } := by
  refine ⟨fun _ => ⟨Nat.zero_le _, by simp only; omega⟩, fun a ha => ?_⟩
  obtain ⟨us, ps, k1, k2⟩ := h.2 a ha
  exact ⟨_, _, k1.chunk (Nat.zero_le _) p.length (by simp), k2.chunk _⟩

theorem Past.more {L T rd} (h : Past L T rd) (n : Nat) : Past L (T + n) rd := fun a ha => by
  obtain ⟨us, ps, k1, k2⟩ := h a ha
  exact ⟨us, ps, ⟨by have := k1.1; omega, k1.2⟩, k2⟩

theorem lzmaDecompress_cap {L : LzmaLib} {s : CLzma} {c : Chunk} {cap n x} (h : lzmaDecompress L s c cap n = .ok x) :
    lzmaDecompress L s c n n = .ok x := by
  unfold lzmaDecompress at h ⊢
  split at h
  · cases h
  · rw [if_neg (by omega)]
    exact h

/-- A request of the process functions. -/
theorem live_decompress [B : Build] {L : LzmaLib} (hL : B.lzma = some L) {T : Nat} {r : CReader} {c : Chunk} (h : Live L T (some r) c) {cap n : Nat}
    (h0 : 0 < n) (hn : n ≤ 128) {x r' c'} (hd : r.decompress c cap n = .ok (x, r', c')) :
    Live L T (some r') c' ∨ (∃ e, x = .fail e ∧ e < 0 ∧ Past L T (some r')) := by
  cases r with
  | lzma a =>
    simp only [CReader.decompress, hL] at hd
    cases hx : lzmaDecompress L a c cap n with
    | error e => rw [hx] at hd; cases hd
    | ok v =>
      obtain ⟨x1, a1, c1⟩ := v
      rw [hx] at hd
      cases hd
      obtain ⟨us, ps, k1, k2⟩ := h.2 a rfl
      have hx := lzmaDecompress_cap hx
      by_cases hf : ∃ e, x1 = .fail e
      · obtain ⟨e, rfl⟩ := hf
        refine .inr ⟨e, rfl, ?_, fun a' ha' => ?_⟩
        · rw [lzmaDecompress_code hx]; decide
        · cases ha'
          exact ⟨_, _, k1.decompress h0 hn, k2.fail hx⟩
      · refine .inl ⟨(fun e => by cases e), fun a' ha' => ?_⟩
        cases ha'
        exact ⟨_, _, k1.decompress h0 hn, k2.decompress hx fun e he => hf ⟨e, he⟩⟩
  | raw ps po =>
    refine .inl ⟨(fun e => by cases e), fun a ha => ?_⟩
    cases ha
    exfalso
    simp only [CReader.decompress] at hd
    unfold noneDecompress at hd
    simp only [Bind.bind, Except.bind] at hd
    split at hd
    · cases hd
    · cases hr : c.read cap n with
      | error e => rw [hr] at hd; cases hd
      | ok o =>
        rw [hr] at hd
        cases o with
        | none => cases hd
        | some q => cases hd
  | crle s =>
    refine .inl ⟨(fun e => by cases e), fun a ha => ?_⟩
    cases ha
    exfalso
    simp only [CReader.decompress, Bind.bind, Except.bind] at hd
    split at hd <;> cases hd
  | heatshrink s =>
    refine .inl ⟨(fun e => by cases e), fun a ha => ?_⟩
    cases ha
    exfalso
    simp only [CReader.decompress, Bind.bind, Except.bind] at hd
    split at hd <;> cases hd

theorem live_unpack [B : Build] {L : LzmaLib} (hL : B.lzma = some L) {T : Nat} : ∀ (fuel : Nat) {r : CReader} {c : Chunk} {z : SizeAcc},
    Live L T (some r) c → ∀ {v r' c' z'}, unpackSizeC fuel r c z = .ok (v, r', c', z') →
    Live L T (some r') c' ∨ (∃ e, v = .fail e ∧ e < 0 ∧ Past L T (some r')) := by
  intro fuel
  induction fuel with
  | zero => intro r c z _ v r' c' z' h; cases h
  | succ fuel ih =>
    intro r c z hl v r' c' z' h
    unfold unpackSizeC at h
    simp only [Bind.bind, Except.bind] at h
    cases hd : r.decompress c 1 1 with
    | error e => rw [hd] at h; cases h
    | ok q =>
      obtain ⟨x, r1, c1⟩ := q
      rw [hd] at h
      have hk := live_decompress hL hl (by decide) (by decide) hd
      cases x with
      | more =>
        cases h
        rcases hk with hk | ⟨e, he, -⟩
        · exact .inl hk
        · cases he
      | fail e =>
        cases h
        rcases hk with hk | ⟨e, he, h1, h2⟩
        · exact .inl hk
        · cases he
          exact .inr ⟨_, rfl, h1, h2⟩
      | ok data =>
        have hk1 : Live L T (some r1) c1 := by
          rcases hk with hk | ⟨e, he, -⟩
          · exact hk
          · cases he
        cases data with
        | nil => cases h
        | cons byte t =>
          simp only at h
          cases hs : sizeByte z byte with
          | error e => rw [hs] at h; cases h
          | ok q =>
            obtain ⟨z1, o⟩ := q
            rw [hs] at h
            cases o with
            | some v1 => cases h; exact .inl hk1
            | none => exact ih hk1 h

theorem chunk_get_inv {c : Chunk} {b c'} (h : c.get = .ok (some (b, c'))) : c'.offset ≤ c'.buf.length ∧ c'.buf = c.buf := by
  unfold Chunk.get Chunk.getNoCheck at h
  simp only [Bind.bind, Except.bind] at h
  split at h
  · cases hb : c.buf[c.offset]? with
    | none => rw [hb] at h; cases h
    | some b' =>
      rw [hb] at h
      cases h
      have := (List.getElem?_eq_some_iff.mp hb).1
      exact ⟨by simp only; omega, rfl⟩
  · cases h

theorem headerSize_inv : ∀ (fuel : Nat) {c : Chunk} {z : SizeAcc} {v c' z'}, chunkUnpackHeaderSize fuel c z = .ok (v, c', z') →
    c.offset ≤ c.buf.length → c'.offset ≤ c'.buf.length ∧ c'.buf = c.buf := by
  intro fuel
  induction fuel with
  | zero => intro c z v c' z' h; cases h
  | succ fuel ih =>
    intro c z v c' z' h hc
    unfold chunkUnpackHeaderSize at h
    simp only [Bind.bind, Except.bind] at h
    cases hg : c.get with
    | error e => rw [hg] at h; cases h
    | ok o =>
      rw [hg] at h
      cases o with
      | none => cases h; exact ⟨hc, rfl⟩
      | some q =>
        obtain ⟨b, c1⟩ := q
        obtain ⟨k1, k2⟩ := chunk_get_inv hg
        simp only at h
        cases hs : headerSizeByte z b with
        | error e => rw [hs] at h; cases h
        | ok q =>
          obtain ⟨z1, o⟩ := q
          rw [hs] at h
          cases o with
          | some v1 => cases h; exact ⟨k1, k2⟩
          | none =>
            obtain ⟨m1, m2⟩ := ih h k1
            exact ⟨m1, by rw [m2, k2]⟩

/-- A reader that was just initialised. -/
theorem live_init [B : Build] {L : LzmaLib} (hL : B.lzma = some L) {T : Nat} {c : Chunk} (h1 : c.offset ≤ c.buf.length) (h2 : c.buf.length ≤ T)
    {n k r} (hr : CReader.init n k = some r) : Live L T (some r) c := by
  refine ⟨(fun e => by cases e), fun a ha => ?_⟩
  cases ha
  unfold CReader.init at hr
  repeat' split at hr
  all_goals first | (cases hr; done) | skip
  rw [hL] at hr
  cases hr
  refine ⟨[.chunk c], [], ?_, (Reaches.start L).chunk c⟩
  have := Fits.chunk (T := 0) (us := []) ⟨Nat.le_refl _, (fun _ h => by cases h), (fun _ h => by cases h)⟩ h1 T (by omega)
  simpa using this

section Sequential

variable [B : Build] {L : LzmaLib} {T : Nat}

/-- A step left the reader usable, or failed. -/
def Kept (L : LzmaLib) (T : Nat) (res : Int) (rd : Option CReader) (c : Chunk) : Prop := Live L T rd c ∨ (res < 0 ∧ Past L T rd)

theorem seq_unpack (hL : B.lzma = some L) {s s' : ApplyPatch} {v} (h : Live L T s.reader s.chunk) (hu : s.unpackSize = .ok (v, s')) :
    (Live L T s'.reader s'.chunk ∨ ∃ e, v = .fail e ∧ e < 0 ∧ Past L T s'.reader) ∧ s'.state = s.state := by
  unfold ApplyPatch.unpackSize at hu
  split at hu
  · cases hu
  · rename_i r hr
    rw [hr] at h
    simp only [Bind.bind, Except.bind, patchReaderUnpackSize] at hu
    cases hx : unpackSizeC 6 r s.chunk s.readerSize with
    | error e => rw [hx] at hu; cases hu
    | ok q =>
      obtain ⟨v1, r1, c1, z1⟩ := q
      rw [hx] at hu
      cases hu
      exact ⟨live_unpack hL 6 h hx, rfl⟩

theorem seq_write {E : SeqEnv σ} {s : ApplyPatch} {w : World σ} {to res s' w'} (he : processWrite E s w to = .ok (res, s', w')) :
    s'.reader = s.reader ∧ s'.chunk = s.chunk ∧ s'.state = s.state := by
  unfold processWrite at he
  simp only at he
  split at he <;> cases he <;> exact ⟨rfl, rfl, rfl⟩

theorem seq_data (hL : B.lzma = some L) {E : SeqEnv σ} {s : ApplyPatch} {w : World σ} {next diff res s' w'} (h : Live L T s.reader s.chunk)
    (he : processData E s w next diff = .ok (res, s', w')) :
    Kept L T res s'.reader s'.chunk ∧ (s'.state = s.state ∨ s'.state = next) := by
  unfold processData at he
  simp only at he
  by_cases h0 : min dataCap s.chunkSize = 0
  · rw [if_pos h0] at he
    cases he
    exact ⟨.inl h, .inr rfl⟩
  · rw [if_neg h0] at he
    cases hr : s.reader with
    | none => rw [hr] at he; cases he
    | some r =>
      rw [hr] at he h
      simp only [Bind.bind, Except.bind] at he
      cases hd : r.decompress s.chunk dataCap (min dataCap s.chunkSize) with
      | error e => rw [hd] at he; cases he
      | ok q =>
        obtain ⟨x, r1, c1⟩ := q
        rw [hd] at he
        have hk := live_decompress hL h (by omega) (show min dataCap s.chunkSize ≤ 128 from Nat.min_le_left _ _) hd
        cases x with
        | more =>
          cases he
          refine ⟨.inl ?_, .inl rfl⟩
          rcases hk with hk | ⟨e, k, -⟩
          · exact hk
          · cases k
        | fail e =>
          cases he
          refine ⟨?_, .inl rfl⟩
          rcases hk with hk | ⟨e, k, k1, k2⟩
          · exact .inl hk
          · cases k
            exact .inr ⟨k1, k2⟩
        | ok to =>
          have hk1 : Live L T (some r1) c1 := by
            rcases hk with hk | ⟨e, k, -⟩
            · exact hk
            · cases k
          simp only at he
          split at he
          · split at he
            · cases he
              exact ⟨.inl hk1, .inl rfl⟩
            · split at he
              · cases he
              · obtain ⟨k1, k2, k3⟩ := seq_write he
                exact ⟨.inl (by rw [k1, k2]; exact hk1), .inl k3⟩
          · obtain ⟨k1, k2, k3⟩ := seq_write he
            exact ⟨.inl (by rw [k1, k2]; exact hk1), .inl k3⟩

theorem seq_init (hL : B.lzma = some L) {s : ApplyPatch} {w : World σ} {res s' w'} (h : Live L T s.reader s.chunk) (hn : s.reader = none)
    (he : processInit s w = .ok (res, s', w')) :
    Kept L T res s'.reader s'.chunk ∧ (s'.state = .init → s'.reader = none ∨ res < 0) := by
  have hc := h.1 hn
  have hnone : ∀ {c : Chunk}, c.offset ≤ c.buf.length → c.buf = s.chunk.buf → Live L T s.reader c := fun h1 h2 =>
    ⟨fun _ => ⟨h1, by rw [h2]; exact hc.2⟩, fun a ha => by rw [hn] at ha; cases ha⟩
  unfold processInit at he
  split at he
  · unfold processInitFixedHeader at he
    simp only [Bind.bind, Except.bind] at he
    cases hg : s.chunk.get with
    | error e => rw [hg] at he; cases he
    | ok o =>
      rw [hg] at he
      cases o with
      | none => cases he; exact ⟨.inl h, fun _ => .inl hn⟩
      | some q =>
        obtain ⟨b, c1⟩ := q
        obtain ⟨k1, k2⟩ := chunk_get_inv hg
        simp only at he
        split at he <;> cases he <;> exact ⟨.inl (hnone k1 k2), fun _ => .inl hn⟩
  · unfold processInitToSize at he
    simp only [Bind.bind, Except.bind] at he
    cases hx : chunkUnpackHeaderSize (s.chunk.left + 1) s.chunk s.size with
    | error e => rw [hx] at he; cases he
    | ok q =>
      obtain ⟨v, c1, z1⟩ := q
      rw [hx] at he
      obtain ⟨k1, k2⟩ := headerSize_inv _ hx hc.1
      cases v with
      | more => cases he; exact ⟨.inl (hnone k1 k2), fun _ => .inl hn⟩
      | fail e => cases he; exact ⟨.inl (hnone k1 k2), fun _ => .inl hn⟩
      | value n =>
        simp only at he
        split at he
        · cases he; exact ⟨.inl (hnone k1 k2), fun _ => .inl hn⟩
        · rename_i r hr
          have hl := live_init hL k1 (T := T) (by rw [k2]; exact hc.2) hr
          split at he
          · cases he; exact ⟨.inl hl, fun _ => .inr (by decide)⟩
          · split at he
            · cases he; exact ⟨.inl hl, (fun e => by cases e)⟩
            · cases he; exact ⟨.inl hl, (fun e => by cases e)⟩

/-- What is kept between steps. -/
structure SeqLive (L : LzmaLib) (T : Nat) (s : ApplyPatch) : Prop where
  init : s.state = .init → s.reader = none
  live : s.state ≠ .failed → Live L T s.reader s.chunk
  past : Past L T s.reader

theorem seq_switch (hL : B.lzma = some L) {E : SeqEnv σ} {s : ApplyPatch} {w : World σ} {res s' w'} (h : SeqLive L T s)
    (he : processSwitch E s w = .ok (res, s', w')) :
    (Kept L T res s'.reader s'.chunk ∨ (s = s' ∧ res < 0)) ∧ (s'.state = .init → s'.reader = none ∨ res < 0) := by
  unfold processSwitch at he
  have fin : ∀ {v : SizeRes} {s1 : ApplyPatch}, s.state ≠ .failed → s.state ≠ .init → s.unpackSize = .ok (v, s1) →
      (Live L T s1.reader s1.chunk ∨ ∃ e, v = .fail e ∧ e < 0 ∧ Past L T s1.reader) ∧ s1.state ≠ .init := fun hf hi hu => by
    obtain ⟨k1, k2⟩ := seq_unpack hL (h.live hf) hu
    exact ⟨k1, by rw [k2]; exact hi⟩
  split at he
  · rename_i hs
    obtain ⟨k1, k2⟩ := seq_init hL (h.live (by rw [hs]; decide)) (h.init hs) he
    exact ⟨.inl k1, k2⟩
  · rename_i hs
    unfold processDfpatchSize at he
    simp only [Bind.bind, Except.bind] at he
    cases hu : s.unpackSize with
    | error e => rw [hu] at he; cases he
    | ok q =>
      obtain ⟨v, s1⟩ := q
      rw [hu] at he
      obtain ⟨k1, k2⟩ := fin (by rw [hs]; decide) (by rw [hs]; decide) hu
      cases v with
      | more => cases he; exact ⟨.inl (.inl (k1.resolve_right fun ⟨e, k, _⟩ => by cases k)), fun e => absurd e k2⟩
      | fail e =>
        cases he
        exact ⟨.inl (k1.imp id fun ⟨e, k, k3, k4⟩ => by cases k; exact ⟨k3, k4⟩), fun e => absurd e k2⟩
      | value n =>
        have k1 := k1.resolve_right fun ⟨e, k, _⟩ => by cases k
        simp only at he
        split at he
        · cases he; exact ⟨.inl (.inl k1), fun e => absurd e k2⟩
        · cases he; exact ⟨.inl (.inl k1), (fun e => by cases e)⟩
  all_goals first
    | (rename_i hs
       obtain ⟨k1, k2⟩ := seq_data hL (h.live (by rw [hs]; decide)) he
       refine ⟨.inl k1, fun e => ?_⟩
       rcases k2 with k | k
       · rw [k, hs] at e; cases e
       · rw [k] at e; cases e)
    | (rename_i hs
       unfold processSize at he
       simp only [Bind.bind, Except.bind] at he
       cases hu : s.unpackSize with
       | error e => rw [hu] at he; cases he
       | ok q =>
         obtain ⟨v, s1⟩ := q
         rw [hu] at he
         obtain ⟨k1, k2⟩ := fin (by rw [hs]; decide) (by rw [hs]; decide) hu
         cases v with
         | more => cases he; exact ⟨.inl (.inl (k1.resolve_right fun ⟨e, k, _⟩ => by cases k)), fun e => absurd e k2⟩
         | fail e =>
           cases he
           exact ⟨.inl (k1.imp id fun ⟨e, k, k3, k4⟩ => by cases k; exact ⟨k3, k4⟩), fun e => absurd e k2⟩
         | value n =>
           have k1 := k1.resolve_right fun ⟨e, k, _⟩ => by cases k
           simp only at he
           split at he
           · cases he; exact ⟨.inl (.inl k1), fun e => absurd e k2⟩
           · cases he; exact ⟨.inl (.inl k1), (fun e => by cases e)⟩)
    | (rename_i hs
       unfold processAdjustment at he
       simp only [Bind.bind, Except.bind] at he
       cases hu : s.unpackSize with
       | error e => rw [hu] at he; cases he
       | ok q =>
         obtain ⟨v, s1⟩ := q
         rw [hu] at he
         obtain ⟨k1, k2⟩ := fin (by rw [hs]; decide) (by rw [hs]; decide) hu
         cases v with
         | more => cases he; exact ⟨.inl (.inl (k1.resolve_right fun ⟨e, k, _⟩ => by cases k)), fun e => absurd e k2⟩
         | fail e =>
           cases he
           exact ⟨.inl (k1.imp id fun ⟨e, k, k3, k4⟩ => by cases k; exact ⟨k3, k4⟩), fun e => absurd e k2⟩
         | value n =>
           have k1 := k1.resolve_right fun ⟨e, k, _⟩ => by cases k
           simp only at he
           split at he
           · cases he; exact ⟨.inl (.inl k1), fun e => absurd e k2⟩
           · split at he
             · cases he
             · split at he
               · cases he; exact ⟨.inl (.inl k1), (fun e => by cases e)⟩
               · cases he; exact ⟨.inl (.inl k1), (fun e => by cases e)⟩)
    | (cases he
       rename_i hs
       refine ⟨.inr ⟨rfl, by decide⟩, fun e => by rw [hs] at e; cases e⟩)

theorem seq_once (hL : B.lzma = some L) {E : SeqEnv σ} {s : ApplyPatch} {w : World σ} {res s' w'} (h : SeqLive L T s)
    (he : processOnce E s w = .ok (res, s', w')) : SeqLive L T s' := by
  unfold processOnce at he
  split at he
  · cases he; exact h
  · simp only [Bind.bind, Except.bind] at he
    cases hs : processSwitch E s w with
    | error e => rw [hs] at he; cases he
    | ok q =>
      obtain ⟨r1, s1, w1⟩ := q
      rw [hs] at he
      obtain ⟨k1, k2⟩ := seq_switch hL h hs
      simp only at he
      split at he
      · cases he
        refine ⟨(fun e => by cases e), fun e => absurd rfl e, ?_⟩
        rcases k1 with (k | ⟨-, k⟩) | ⟨k, -⟩
        · exact k.past
        · exact k
        · subst k; exact h.past
      · cases he
        have hl : Live L T s'.reader s'.chunk := by
          rcases k1 with (k | ⟨k, -⟩) | ⟨-, k⟩
          · exact k
          · omega
          · omega
        exact ⟨fun e => (k2 e).resolve_right (by omega), fun _ => hl, hl.past⟩

theorem seq_processLoop (hL : B.lzma = some L) {E : SeqEnv σ} : ∀ (fuel : Nat) {res : Int} {s : ApplyPatch} {w : World σ} {res' s' w'},
    SeqLive L T s → processLoop E fuel res s w = .ok (res', s', w') → SeqLive L T s'
  | 0, _, _, _, _, _, _, _, he => by cases he
  | fuel + 1, res, s, w, res', s', w', h, he => by
    unfold processLoop at he
    split at he
    · simp only [Bind.bind, Except.bind] at he
      cases ho : processOnce E s w with
      | error e => rw [ho] at he; cases he
      | ok q =>
        obtain ⟨r1, s1, w1⟩ := q
        rw [ho] at he
        exact seq_processLoop hL fuel (seq_once hL h ho) he
    · cases he; exact h

theorem seq_finalizeLoop (hL : B.lzma = some L) {E : SeqEnv σ} : ∀ (fuel : Nat) {s : ApplyPatch} {w : World σ} {res' s' w'},
    SeqLive L T s → finalizeLoop E fuel s w = .ok (res', s', w') → SeqLive L T s'
  | 0, _, _, _, _, _, _, he => by cases he
  | fuel + 1, s, w, res', s', w', h, he => by
    unfold finalizeLoop at he
    simp only [Bind.bind, Except.bind] at he
    cases ho : processOnce E s w with
    | error e => rw [ho] at he; cases he
    | ok q =>
      obtain ⟨r1, s1, w1⟩ := q
      rw [ho] at he
      simp only at he
      split at he
      · exact seq_finalizeLoop hL fuel (seq_once hL h ho) he
      · cases he; exact seq_once hL h ho

theorem seq_setChunk {s : ApplyPatch} (h : SeqLive L T s) (p : Bytes) (n : Nat) :
    SeqLive L (T + p.length) { s with patchOffset := n, chunk := { buf := p, offset := 0 } } :=
  ⟨h.init, fun e => (h.live e).setChunk p, h.past.more _⟩

theorem seq_calls (hL : B.lzma = some L) {E : SeqEnv σ} : ∀ (calls : List Call) {T : Nat} {s : ApplyPatch} {w : World σ} {rs s' w'},
    SeqLive L T s → runCalls E s w calls = .ok (rs, s', w') → SeqLive L (T + fed calls) s'
  | [], _, _, _, _, _, _, h, he => by cases he; exact h
  | .process p :: cs, T, s, w, rs, s', w', h, he => by
    simp only [runCalls, Bind.bind, Except.bind] at he
    cases hp : applyPatchProcess E s w p with
    | error e => rw [hp] at he; cases he
    | ok q =>
      obtain ⟨r1, s1, w1⟩ := q
      rw [hp] at he
      simp only at he
      cases hr : runCalls E s1 w1 cs with
      | error e => rw [hr] at he; cases he
      | ok q =>
        obtain ⟨rs1, s2, w2⟩ := q
        rw [hr] at he
        cases he
        unfold applyPatchProcess at hp
        simp only [Bind.bind, Except.bind] at hp
        split at hp
        · cases hp
        · rename_i q hq
          obtain ⟨r2, s3, w3⟩ := q
          have hk := seq_processLoop hL _ (seq_setChunk h p _) hq
          have h1 : s3 = s1 := by
            simp only at hp
            split at hp <;> cases hp <;> rfl
          subst h1
          have := seq_calls hL cs hk hr
          rw [Nat.add_assoc] at this
          exact this
  | .finalize :: cs, T, s, w, rs, s', w', h, he => by
    simp only [runCalls, Bind.bind, Except.bind] at he
    cases hp : applyPatchFinalize E s w with
    | error e => rw [hp] at he; cases he
    | ok q =>
      obtain ⟨r1, s1, w1⟩ := q
      rw [hp] at he
      simp only at he
      cases hr : runCalls E s1 w1 cs with
      | error e => rw [hr] at he; cases he
      | ok q =>
        obtain ⟨rs1, s2, w2⟩ := q
        rw [hr] at he
        cases he
        unfold applyPatchFinalize at hp
        simp only [Bind.bind, Except.bind] at hp
        split at hp
        · cases hp
        · rename_i q hq
          obtain ⟨r2, s3, w3⟩ := q
          have hk := seq_finalizeLoop hL _ (seq_setChunk h [] s.patchOffset) hq
          cases hp
          exact seq_calls hL cs hk hr

theorem seq_start (n : Nat) : SeqLive L 0 (applyPatchInit n) :=
  ⟨fun _ => rfl, fun _ => ⟨fun _ => ⟨Nat.le_refl _, Nat.le_refl _⟩, (fun a e => by cases e)⟩, (fun a e => by cases e)⟩

end Sequential

section InPlaceApi

variable [B : Build] {L : LzmaLib} {T : Nat}

theorem ip_unpack (hL : B.lzma = some L) {s s' : InPlace} {v} (h : Live L T s.reader s.chunk) (hu : s.unpackSize = .ok (v, s')) :
    (Live L T s'.reader s'.chunk ∨ ∃ e, v = .fail e ∧ e < 0 ∧ Past L T s'.reader) ∧ s'.state = s.state := by
  unfold InPlace.unpackSize at hu
  split at hu
  · cases hu
  · rename_i r hr
    rw [hr] at h
    simp only [Bind.bind, Except.bind, patchReaderUnpackSize] at hu
    cases hx : unpackSizeC 6 r s.chunk s.readerSize with
    | error e => rw [hx] at hu; cases hu
    | ok q =>
      obtain ⟨v1, r1, c1, z1⟩ := q
      rw [hx] at hu
      cases hu
      exact ⟨live_unpack hL 6 h hx, rfl⟩

/-- Two objects with the same reader, chunk and state. -/
def SameIp (s s' : InPlace) : Prop := s'.reader = s.reader ∧ s'.chunk = s.chunk ∧ s'.state = s.state

theorem ip_write {E : MemEnv σ} {s : InPlace} {w : MWorld σ} {to res s' w'} (he : ipDataWrite E s w to = .ok (res, s', w')) : SameIp s s' := by
  unfold ipDataWrite at he
  simp only at he
  split at he <;> cases he <;> exact ⟨rfl, rfl, rfl⟩

theorem ip_nextStep {E : MemEnv σ} {s : InPlace} {w : MWorld σ} {res s' w'} (he : nextStep E s w = (res, s', w')) : SameIp s s' := by
  unfold nextStep at he
  repeat' (first | split at he | simp only at he)
  all_goals (cases he; exact ⟨rfl, rfl, rfl⟩)

theorem ip_shiftOne {E : MemEnv σ} {s : InPlace} {w : MWorld σ} {r q res s' w'} (he : shiftOne E s w r q = .ok (res, s', w')) : SameIp s s' := by
  unfold shiftOne at he
  simp only [Bind.bind, Except.bind] at he
  split at he
  · cases he; exact ⟨rfl, rfl, rfl⟩
  · split at he
    · cases he
    · split at he
      · cases he; exact ⟨rfl, rfl, rfl⟩
      · exact ip_nextStep (Except.ok.inj he)

theorem ip_shiftLoop {E : MemEnv σ} : ∀ (n : Nat) {s : InPlace} {w : MWorld σ} {r q res s' w'}, shiftLoop E n s w r q = .ok (res, s', w') → SameIp s s'
  | 0, _, _, _, _, _, _, _, he => by cases he; exact ⟨rfl, rfl, rfl⟩
  | n + 1, s, w, r, q, res, s', w', he => by
    unfold shiftLoop at he
    simp only [Bind.bind, Except.bind] at he
    cases ho : shiftOne E s w r q with
    | error e => rw [ho] at he; cases he
    | ok x =>
      obtain ⟨r1, s1, w1⟩ := x
      rw [ho] at he
      have h1 := ip_shiftOne ho
      simp only at he
      split at he
      · cases he; exact h1
      · have h2 := ip_shiftLoop n he
        exact ⟨h2.1.trans h1.1, h2.2.1.trans h1.2.1, h2.2.2.trans h1.2.2⟩

theorem ip_shift {E : MemEnv σ} {s : InPlace} {w : MWorld σ} {m f res s' w'} (he : inPlaceShiftMemory E s w m f = .ok (res, s', w')) : SameIp s s' := by
  unfold inPlaceShiftMemory at he
  split at he
  · cases he
  · exact ip_shiftLoop _ he

theorem ip_data (hL : B.lzma = some L) {E : MemEnv σ} {s : InPlace} {w : MWorld σ} {next diff res s' w'} (h : Live L T s.reader s.chunk)
    (he : ipData E s w next diff = .ok (res, s', w')) :
    Kept L T res s'.reader s'.chunk ∧ (s'.state = s.state ∨ s'.state = next) := by
  unfold ipData at he
  simp only at he
  by_cases h0 : min dataCap s.chunkSize = 0
  · rw [if_pos h0] at he
    cases he
    exact ⟨.inl h, .inr rfl⟩
  · rw [if_neg h0] at he
    cases hr : s.reader with
    | none => rw [hr] at he; cases he
    | some r =>
      rw [hr] at he h
      simp only [Bind.bind, Except.bind] at he
      cases hd : r.decompress s.chunk dataCap (min dataCap s.chunkSize) with
      | error e => rw [hd] at he; cases he
      | ok q =>
        obtain ⟨x, r1, c1⟩ := q
        rw [hd] at he
        have hk := live_decompress hL h (by omega) (show min dataCap s.chunkSize ≤ 128 from Nat.min_le_left _ _) hd
        cases x with
        | more =>
          cases he
          exact ⟨.inl (hk.resolve_right fun ⟨e, k, _⟩ => by cases k), .inl rfl⟩
        | fail e =>
          cases he
          exact ⟨hk.imp id fun ⟨e, k, k1, k2⟩ => by cases k; exact ⟨k1, k2⟩, .inl rfl⟩
        | ok to =>
          have hk1 : Live L T (some r1) c1 := hk.resolve_right fun ⟨e, k, _⟩ => by cases k
          simp only at he
          split at he
          · split at he
            · cases he
            · split at he
              · cases he
                exact ⟨.inl hk1, .inl rfl⟩
              · split at he
                · cases he
                · obtain ⟨k1, k2, k3⟩ := ip_write he
                  exact ⟨.inl (by rw [k1, k2]; exact hk1), .inl k3⟩
          · obtain ⟨k1, k2, k3⟩ := ip_write he
            exact ⟨.inl (by rw [k1, k2]; exact hk1), .inl k3⟩

/-- The chunk lies in what has been fed. -/
def InFed (T : Nat) (c : Chunk) : Prop := c.offset ≤ c.buf.length ∧ c.buf.length ≤ T

/-- What is kept between steps of the in-place object. -/
structure IpLive (L : LzmaLib) (T : Nat) (s : InPlace) : Prop where
  init : s.state = .init → InFed T s.chunk
  live : s.state ≠ .failed → s.state ≠ .init → Live L T s.reader s.chunk
  past : Past L T s.reader

theorem ip_headerSize {s s' : InPlace} {v} (hc : InFed T s.chunk) (hh : s.headerSize = .ok (v, s')) :
    InFed T s'.chunk ∧ s'.reader = s.reader ∧ s'.state = s.state ∧ s'.chunk.buf = s.chunk.buf := by
  unfold InPlace.headerSize at hh
  simp only [Bind.bind, Except.bind] at hh
  cases hx : chunkUnpackHeaderSize (s.chunk.left + 1) s.chunk s.size with
  | error e => rw [hx] at hh; cases hh
  | ok q =>
    obtain ⟨v, c1, z1⟩ := q
    rw [hx] at hh
    cases hh
    obtain ⟨k1, k2⟩ := headerSize_inv _ hx hc.1
    exact ⟨⟨k1, by rw [k2]; exact hc.2⟩, rfl, rfl, k2⟩

theorem ip_init (hL : B.lzma = some L) {E : MemEnv σ} {s : InPlace} {w : MWorld σ} {res s' w'} (h : IpLive L T s) (hs : s.state = .init)
    (he : ipInit E s w = .ok (res, s', w')) : IpLive L T s' := by
  have hc := h.init hs
  have stay : ∀ {s1 : InPlace}, InFed T s1.chunk → s1.state = .init → s1.reader = s.reader → IpLive L T s1 := fun h1 h2 h3 =>
    ⟨fun _ => h1, fun _ e => absurd h2 e, by rw [h3]; exact h.past⟩
  have size : ∀ {next set}, (∀ s v, SameIp s (set s v)) → ipInitSize s w next set = .ok (res, s', w') → IpLive L T s' := fun hset he => by
    unfold ipInitSize at he
    simp only [Bind.bind, Except.bind] at he
    cases hx : s.headerSize with
    | error e => rw [hx] at he; cases he
    | ok q =>
      obtain ⟨v, s1⟩ := q
      rw [hx] at he
      obtain ⟨k1, k2, k3, -⟩ := ip_headerSize hc hx
      cases v with
      | more => cases he; exact stay k1 (k3.trans hs) k2
      | fail e => cases he; exact stay k1 (k3.trans hs) k2
      | value n =>
        cases he
        obtain ⟨m1, m2, m3⟩ := hset s1 (szOfInt n)
        exact stay (by simp only; rw [m2]; exact k1) (by simp only; rw [m3]; exact k3.trans hs) (by simp only; rw [m1]; exact k2)
  unfold ipInit at he
  split at he
  · unfold ipInitFixedHeader at he
    simp only [Bind.bind, Except.bind] at he
    cases hg : s.chunk.get with
    | error e => rw [hg] at he; cases he
    | ok o =>
      rw [hg] at he
      cases o with
      | none => cases he; exact h
      | some q =>
        obtain ⟨b, c1⟩ := q
        obtain ⟨k1, k2⟩ := chunk_get_inv hg
        simp only at he
        split at he <;> cases he <;> exact stay ⟨k1, by rw [k2]; exact hc.2⟩ hs rfl
  · refine size ?_ he
    exact fun s v => ⟨rfl, rfl, rfl⟩
  · refine size ?_ he
    exact fun s v => ⟨rfl, rfl, rfl⟩
  · refine size ?_ he
    exact fun s v => ⟨rfl, rfl, rfl⟩
  · refine size ?_ he
    exact fun s v => ⟨rfl, rfl, rfl⟩
  · unfold ipInitToSize at he
    simp only [Bind.bind, Except.bind] at he
    cases hx : s.headerSize with
    | error e => rw [hx] at he; cases he
    | ok q =>
      obtain ⟨v, s1⟩ := q
      rw [hx] at he
      obtain ⟨k1, k2, k3, -⟩ := ip_headerSize hc hx
      cases v with
      | more => cases he; exact stay k1 (k3.trans hs) k2
      | fail e => cases he; exact stay k1 (k3.trans hs) k2
      | value n =>
        simp only at he
        split at he
        · cases he; exact stay k1 (k3.trans hs) k2
        · rename_i r hr
          have hl := live_init hL k1.1 k1.2 hr
          split at he
          · cases he; exact ⟨fun _ => k1, fun _ _ => hl, hl.past⟩
          · split at he
            · split at he
              · cases he
              · rename_i q hq
                obtain ⟨r2, s2, w2⟩ := q
                obtain ⟨m1, m2, m3⟩ := ip_shift hq
                simp only at m1 m2 m3 he
                split at he
                · cases he
                  exact ⟨fun _ => by rw [m2]; exact k1, fun _ _ => by rw [m1, m2]; exact hl, by rw [m1]; exact hl.past⟩
                · cases he
                  exact ⟨(fun e => by cases e), fun _ _ => by simp only; rw [m1, m2]; exact hl, by simp only; rw [m1]; exact hl.past⟩
            · cases he
              exact ⟨(fun e => by cases e), fun _ _ => hl, hl.past⟩

theorem ip_switch (hL : B.lzma = some L) {E : MemEnv σ} {s : InPlace} {w : MWorld σ} {res s' w'} (h : IpLive L T s)
    (he : ipSwitch E s w = .ok (res, s', w')) : IpLive L T s' ∨ (res < 0 ∧ Past L T s'.reader) := by
  have live : ∀ {s1 : InPlace}, Live L T s1.reader s1.chunk → s1.state ≠ .init → IpLive L T s1 := fun h1 h2 =>
    ⟨fun e => absurd e h2, fun _ _ => h1, h1.past⟩
  have fin : ∀ {v : SizeRes} {s1 : InPlace}, s.state ≠ .failed → s.state ≠ .init → s.unpackSize = .ok (v, s1) →
      (Live L T s1.reader s1.chunk ∨ ∃ e, v = .fail e ∧ e < 0 ∧ Past L T s1.reader) ∧ s1.state ≠ .init := fun hf hi hu => by
    obtain ⟨k1, k2⟩ := ip_unpack hL (h.live hf hi) hu
    exact ⟨k1, by rw [k2]; exact hi⟩
  have data : ∀ {next diff}, s.state ≠ .failed → s.state ≠ .init → next ≠ .init → ipData E s w next diff = .ok (res, s', w') →
      IpLive L T s' ∨ (res < 0 ∧ Past L T s'.reader) := fun hf hi hn he => by
    obtain ⟨k1, k2⟩ := ip_data hL (h.live hf hi) he
    refine k1.imp (fun k => live k ?_) id
    rcases k2 with k | k
    · rw [k]; exact hi
    · rw [k]; exact hn
  have size : ∀ {next}, s.state ≠ .failed → s.state ≠ .init → next ≠ .init → ipSize s w next = .ok (res, s', w') →
      IpLive L T s' ∨ (res < 0 ∧ Past L T s'.reader) := fun hf hi hn he => by
    unfold ipSize at he
    simp only [Bind.bind, Except.bind] at he
    cases hu : s.unpackSize with
    | error e => rw [hu] at he; cases he
    | ok q =>
      obtain ⟨v, s1⟩ := q
      rw [hu] at he
      obtain ⟨k1, k2⟩ := fin hf hi hu
      cases v with
      | more => cases he; exact .inl (live (k1.resolve_right fun ⟨e, k, _⟩ => by cases k) k2)
      | fail e =>
        cases he
        rcases k1 with k | ⟨e, k, k3, k4⟩
        · exact .inl (live k k2)
        · cases k; exact .inr ⟨k3, k4⟩
      | value n =>
        have k1 := k1.resolve_right fun ⟨e, k, _⟩ => by cases k
        simp only at he
        split at he
        · cases he; exact .inl (live k1 k2)
        · cases he; exact .inl (live k1 hn)
  unfold ipSwitch at he
  split at he
  · rename_i hs
    exact .inl (ip_init hL h hs he)
  · rename_i hs
    unfold ipDfpatchSize at he
    simp only [Bind.bind, Except.bind] at he
    cases hu : s.unpackSize with
    | error e => rw [hu] at he; cases he
    | ok q =>
      obtain ⟨v, s1⟩ := q
      rw [hu] at he
      obtain ⟨k1, k2⟩ := fin (by rw [hs]; decide) (by rw [hs]; decide) hu
      cases v with
      | more => cases he; exact .inl (live (k1.resolve_right fun ⟨e, k, _⟩ => by cases k) k2)
      | fail e =>
        cases he
        rcases k1 with k | ⟨e, k, k3, k4⟩
        · exact .inl (live k k2)
        · cases k; exact .inr ⟨k3, k4⟩
      | value n =>
        have k1 := k1.resolve_right fun ⟨e, k, _⟩ => by cases k
        simp only at he
        split at he
        · cases he; exact .inl (live k1 k2)
        · cases he; exact .inl (live k1 (fun e => by cases e))
  · rename_i hs; exact size (by rw [hs]; decide) (by rw [hs]; decide) (by decide) he
  · rename_i hs; exact data (by rw [hs]; decide) (by rw [hs]; decide) (by decide) he
  · rename_i hs; exact size (by rw [hs]; decide) (by rw [hs]; decide) (by decide) he
  · rename_i hs; exact data (by rw [hs]; decide) (by rw [hs]; decide) (by decide) he
  · rename_i hs
    unfold ipAdjustment at he
    simp only [Bind.bind, Except.bind] at he
    cases hu : s.unpackSize with
    | error e => rw [hu] at he; cases he
    | ok q =>
      obtain ⟨v, s1⟩ := q
      rw [hu] at he
      obtain ⟨k1, k2⟩ := fin (by rw [hs]; decide) (by rw [hs]; decide) hu
      cases v with
      | more => cases he; exact .inl (live (k1.resolve_right fun ⟨e, k, _⟩ => by cases k) k2)
      | fail e =>
        cases he
        rcases k1 with k | ⟨e, k, k3, k4⟩
        · exact .inl (live k k2)
        · cases k; exact .inr ⟨k3, k4⟩
      | value n =>
        have k1 := k1.resolve_right fun ⟨e, k, _⟩ => by cases k
        simp only at he
        split at he
        · cases he; exact .inl (live k1 (fun e => by cases e))
        · split at he
          · cases hn : nextStep E s1 w with
            | mk r2 y =>
              obtain ⟨s2, w2⟩ := y
              rw [hn] at he
              obtain ⟨m1, m2, m3⟩ := ip_nextStep hn
              cases he
              exact .inl (live (by simp only; rw [m1, m2]; exact k1) (fun e => by cases e))
          · split at he
            · cases he
            · cases he; exact .inl (live k1 (fun e => by cases e))
  · cases he; exact .inl h
  · cases he; exact .inl h

theorem ip_once (hL : B.lzma = some L) {E : MemEnv σ} {s : InPlace} {w : MWorld σ} {res s' w'} (h : IpLive L T s)
    (he : ipOnce E s w = .ok (res, s', w')) : IpLive L T s' := by
  unfold ipOnce at he
  split at he
  · cases he; exact h
  · simp only [Bind.bind, Except.bind] at he
    cases hs : ipSwitch E s w with
    | error e => rw [hs] at he; cases he
    | ok q =>
      obtain ⟨r1, s1, w1⟩ := q
      rw [hs] at he
      have k := ip_switch hL h hs
      simp only at he
      split at he
      · cases he
        refine ⟨(fun e => by cases e), fun e => absurd rfl e, ?_⟩
        rcases k with k | ⟨-, k⟩
        · exact k.past
        · exact k
      · cases he
        exact k.resolve_right fun ⟨e, _⟩ => by omega

theorem ip_processLoop (hL : B.lzma = some L) {E : MemEnv σ} : ∀ (fuel : Nat) {res : Int} {s : InPlace} {w : MWorld σ} {res' s' w'},
    IpLive L T s → ipProcessLoop E fuel res s w = .ok (res', s', w') → IpLive L T s'
  | 0, _, _, _, _, _, _, _, he => by cases he
  | fuel + 1, res, s, w, res', s', w', h, he => by
    unfold ipProcessLoop at he
    split at he
    · simp only [Bind.bind, Except.bind] at he
      cases ho : ipOnce E s w with
      | error e => rw [ho] at he; cases he
      | ok q =>
        obtain ⟨r1, s1, w1⟩ := q
        rw [ho] at he
        exact ip_processLoop hL fuel (ip_once hL h ho) he
    · cases he; exact h

theorem ip_finalizeLoop (hL : B.lzma = some L) {E : MemEnv σ} : ∀ (fuel : Nat) {s : InPlace} {w : MWorld σ} {res' s' w'},
    IpLive L T s → ipFinalizeLoop E fuel s w = .ok (res', s', w') → IpLive L T s'
  | 0, _, _, _, _, _, _, he => by cases he
  | fuel + 1, s, w, res', s', w', h, he => by
    unfold ipFinalizeLoop at he
    simp only [Bind.bind, Except.bind] at he
    cases ho : ipOnce E s w with
    | error e => rw [ho] at he; cases he
    | ok q =>
      obtain ⟨r1, s1, w1⟩ := q
      rw [ho] at he
      simp only at he
      split at he
      · exact ip_finalizeLoop hL fuel (ip_once hL h ho) he
      · cases he; exact ip_once hL h ho

theorem ip_setChunk {s : InPlace} (h : IpLive L T s) (p : Bytes) :
    IpLive L (T + p.length) { s with chunk := { buf := p, offset := 0 } } :=
  ⟨fun _ => ⟨Nat.zero_le _, by simp only; omega⟩, fun e e' => (h.live e e').setChunk p, h.past.more _⟩

theorem ip_calls (hL : B.lzma = some L) {E : MemEnv σ} : ∀ (calls : List Call) {T : Nat} {s : InPlace} {w : MWorld σ} {rs s' w'},
    IpLive L T s → runInPlaceCalls E s w calls = .ok (rs, s', w') → IpLive L (T + fed calls) s'
  | [], _, _, _, _, _, _, h, he => by cases he; exact h
  | .process p :: cs, T, s, w, rs, s', w', h, he => by
    simp only [runInPlaceCalls, Bind.bind, Except.bind] at he
    cases hp : inPlaceProcess E s w p with
    | error e => rw [hp] at he; cases he
    | ok q =>
      obtain ⟨r1, s1, w1⟩ := q
      rw [hp] at he
      simp only at he
      cases hr : runInPlaceCalls E s1 w1 cs with
      | error e => rw [hr] at he; cases he
      | ok q =>
        obtain ⟨rs1, s2, w2⟩ := q
        rw [hr] at he
        cases he
        unfold inPlaceProcess at hp
        simp only [Bind.bind, Except.bind] at hp
        split at hp
        · cases hp
        · rename_i q hq
          obtain ⟨r2, s3, w3⟩ := q
          have hk := ip_processLoop hL _ (ip_setChunk h p) hq
          have h1 : s3 = s1 := by
            simp only at hp
            split at hp <;> cases hp <;> rfl
          subst h1
          have := ip_calls hL cs hk hr
          rw [Nat.add_assoc] at this
          exact this
  | .finalize :: cs, T, s, w, rs, s', w', h, he => by
    simp only [runInPlaceCalls, Bind.bind, Except.bind] at he
    cases hp : inPlaceFinalize E s w with
    | error e => rw [hp] at he; cases he
    | ok q =>
      obtain ⟨r1, s1, w1⟩ := q
      rw [hp] at he
      simp only at he
      cases hr : runInPlaceCalls E s1 w1 cs with
      | error e => rw [hr] at he; cases he
      | ok q =>
        obtain ⟨rs1, s2, w2⟩ := q
        rw [hr] at he
        cases he
        unfold inPlaceFinalize at hp
        simp only [Bind.bind, Except.bind] at hp
        split at hp
        · cases hp
        · rename_i q hq
          obtain ⟨r2, s3, w3⟩ := q
          have hk := ip_finalizeLoop hL _ (ip_setChunk h []) hq
          cases hp
          exact ip_calls hL cs hk hr

theorem ip_start (n : Nat) : IpLive L 0 (inPlaceInit n) :=
  ⟨fun _ => ⟨Nat.le_refl _, Nat.le_refl _⟩, fun _ e => absurd rfl e, (fun a e => by cases e)⟩

end InPlaceApi

end Detools.LzmaHeap
