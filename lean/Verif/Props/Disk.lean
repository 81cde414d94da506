import Verif.Proofs.Disk
/-!
C118, C119: making transactions, and the directory of temporary files.
-/
namespace Verif
open Spec

/-- What `NewTransaction` comes to when nothing is nil. -/
theorem newTransactionOn_eq (d : Disk) (dir : Option DirPath) (l : Limits) :
    newTransactionOn d (some { limits := some l, tmpPath := some dir }) true =
      match d.makeBufferDir dir with
      | (d, some x) => .ok (d, .error (.os x))
      | (d, none) => match d.makeBufferDir dir with
        | (d, some x) => .ok (d, .error (.os x))
        | (d, none) => .ok (d, .ok (newTransaction l)) := by
  simp only [newTransactionOn, Disk.newBuffer, Bool.not_true, Bool.false_eq_true, if_false]
  rcases d.makeBufferDir dir with ⟨d1, _ | x⟩
  · simp only
    rcases d1.makeBufferDir dir with ⟨d2, _ | x⟩ <;> rfl
  · rfl

/-- `NewTransaction` succeeds exactly if there is something at `TmpPath`, or if a directory
can be made there; and makes what is missing. -/
theorem C118_created {d : Disk} (ht : Tree d) {p : DirPath} {l : Limits} {d' : Disk} {t : Tx} :
    newTransactionOn d (some { limits := some l, tmpPath := some (some p) }) true = .ok (d', .ok t) ↔
      t = newTransaction l ∧ (((∃ e, There d p e) ∧ d' = d) ∨ (Makeable d p ∧ d' = filled d p)) := by
  rw [newTransactionOn_eq]
  rcases hm : d.makeBufferDir (some p) with ⟨d1, _ | x⟩
  · simp only [Disk.makeBufferDir_again ht hm]
    constructor
    · intro h
      cases h
      exact ⟨rfl, (Disk.makeBufferDir_ok ht).1 hm⟩
    · rintro ⟨rfl, h⟩
      have := (Disk.makeBufferDir_ok ht).2 h
      rw [hm] at this
      cases this
      rfl
  · constructor
    · intro h; cases h
    · rintro ⟨-, h⟩
      have := (Disk.makeBufferDir_ok ht).2 h
      rw [hm] at this
      cases this

/-- The nil cases: errors for a nil engine and a nil rule set, panics for an engine without
limits or configuration. -/
theorem C118_nil (d : Disk) (e : EngineRec) (rs : Bool) :
    newTransactionOn d none rs = .ok (d, .error .noEngine) ∧ newTransactionOn d (some e) false = .ok (d, .error .noRuleSet) ∧
      (e.limits = none ∨ e.tmpPath = none → newTransactionOn d (some e) true = .panic) ∧
      ∀ l, newTransactionOn d (some { limits := some l, tmpPath := some none }) true = .ok (d, .error (.os .notExist)) := by
  refine ⟨rfl, rfl, ?_, fun l => rfl⟩
  obtain ⟨l, p⟩ := e
  rintro (h | h) <;> simp only at h <;> subst h
  · cases p <;> rfl
  · rfl

/-- The limits make sense. -/
def Limits.Sane (l : Limits) : Prop := 0 ≤ l.requestBodyInMem ∧ l.requestBodyInMem ≤ l.requestBody ∧ 0 ≤ l.responseBody

/-- C118: a transaction that could be made keeps every body within the limits. -/
def C118_statement : Prop :=
  ∀ (d : Disk), Tree d → ∀ (p : DirPath) (l : Limits), l.Sane → ∀ (d' : Disk) (t : Tx),
    newTransactionOn d (some { limits := some l, tmpPath := some (some p) }) true = .ok (d', .ok t) →
    ∀ chunks : List Bytes, (chunks.flatten.length : Int) ≤ l.requestBody →
      ∃ b, t.reqBody.writesOn (d'.io p) chunks = .ok (b, chunks.map fun _ => none)

/-- A body that can still be written to. -/
structure Buf.Writable (b : Buf) : Prop where
  unread : b.readed = false
  mem : b.fileBuf = none → (b.length : Int) ≤ b.memLimit
  file : ∀ f, b.fileBuf = some f → f.closed = false

theorem Buf.Writable.write {b : Buf} (h : b.Writable) {p : Bytes} {io : IOFault} (hw : io.writeFail = none) (hc : io.copyFail = none)
    (ht : io.tempFail = false ∨ (b.fileBuf = none ∧ (b.length : Int) + p.length ≤ b.memLimit)) (hl : (b.length : Int) + p.length ≤ b.fileLimit) :
    ∃ b', b.write p io = .ok (b', p.length, none) ∧ b'.Writable ∧ b'.length = b.length + p.length ∧ b'.memLimit = b.memLimit ∧ b'.fileLimit = b.fileLimit ∧
      ((b.fileBuf = none ∧ (b.length : Int) + p.length ≤ b.memLimit) → b'.fileBuf = none) := by
  have h1 : ¬ (b.length : Int) + p.length > b.fileLimit := by omega
  simp only [Buf.write, h.unread, Bool.false_eq_true, if_false, h1]
  cases hf : b.fileBuf with
  | none =>
    simp only
    by_cases h2 : (b.length : Int) + p.length > b.memLimit
    · have ht' : io.tempFail = false := by
        rcases ht with ht | ⟨-, ht⟩
        · exact ht
        · omega
      have h3 : ¬ b.memLimit - (b.length : Int) < 0 := by have := h.mem hf; omega
      simp only [h2, if_true, h3, if_false, ht', Bool.false_eq_true, hc, hw, File.write]
      refine ⟨_, rfl, ⟨rfl, fun h => (by cases h), fun f h => (by cases h; rfl)⟩, rfl, rfl, rfl, fun ⟨_, h⟩ => by omega⟩
    · simp only [h2, if_false]
      refine ⟨_, rfl, ⟨rfl, fun _ => ?_, fun f h => (by cases h)⟩, rfl, rfl, rfl, fun _ => rfl⟩
      show ((b.length + p.length : Nat) : Int) ≤ b.memLimit
      omega
  | some f =>
    simp only [File.write, h.file f hf, Bool.false_eq_true, if_false, hw]
    refine ⟨_, rfl, ⟨rfl, fun h => (by cases h), fun f' h' => (by cases h'; rfl)⟩, rfl, rfl, rfl, fun ⟨h, _⟩ => by cases h⟩

/-- Where files can be made, or none is needed, every chunk within the limit is accepted. -/
theorem Buf.Writable.writesOn {io : IOFault} (hw : io.writeFail = none) (hc : io.copyFail = none) : ∀ {chunks : List Bytes} {b : Buf}, b.Writable →
    (io.tempFail = false ∨ (b.fileBuf = none ∧ (b.length : Int) + chunks.flatten.length ≤ b.memLimit)) →
    (b.length : Int) + chunks.flatten.length ≤ b.fileLimit → ∃ b', b.writesOn io chunks = .ok (b', chunks.map fun _ => none) := by
  intro chunks
  induction chunks with
  | nil => intro b _ _ _; exact ⟨b, rfl⟩
  | cons p ps ih =>
    intro b h ht hl
    simp only [List.flatten_cons, List.length_append] at ht hl
    obtain ⟨b1, h1, h2, h3, h4, h5, h6⟩ := h.write (p := p) hw hc (ht.imp id (fun ⟨a, b⟩ => ⟨a, by omega⟩)) (by omega)
    obtain ⟨b2, h7⟩ := ih h2 (ht.imp id (fun ⟨a, b⟩ => ⟨h6 ⟨a, by omega⟩, by rw [h3, h4]; omega⟩)) (by rw [h3, h5]; omega)
    exact ⟨b2, by simp only [Buf.writesOn, h1, Res.bind_ok', h7, List.map_cons]⟩

/-- Where no file can be made, chunks are all accepted only if they fit in memory. -/
theorem Buf.Writable.writesOn_mem {io : IOFault} (ht : io.tempFail = true) : ∀ {chunks : List Bytes} {b b' : Buf}, b.Writable → b.fileBuf = none →
    b.writesOn io chunks = .ok (b', chunks.map fun _ => none) → (b.length : Int) + chunks.flatten.length ≤ b.memLimit := by
  intro chunks
  induction chunks with
  | nil => intro b b' h hf _; simpa using h.mem hf
  | cons p ps ih =>
    intro b b' h hf hr
    simp only [Buf.writesOn, Buf.write, h.unread, Bool.false_eq_true, if_false, hf] at hr
    split at hr
    · simp only [Res.bind_ok'] at hr
      rcases hx : b.writesOn io ps with ⟨_, _⟩ | _ | _ <;> rw [hx] at hr <;> cases hr
    · split at hr
      · split at hr
        · cases hr
        · simp only [Res.bind_ok'] at hr
          rcases hx : Buf.writesOn _ io ps with ⟨_, _⟩ | _ | _ <;> rw [hx] at hr <;> cases hr
      · rename_i h2
        simp only [Res.bind_ok'] at hr
        rcases hx : Buf.writesOn _ io ps with ⟨b2, es⟩ | _ | _ <;> rw [hx] at hr
        rotate_left
        · cases hr
        · cases hr
        have hr : (Res.ok (b2, none :: es) : Res (Buf × List (Option BufErr))) = .ok (b', none :: ps.map fun _ => none) := hr
        cases hr
        have := ih ⟨rfl, fun _ => (by show ((b.length + p.length : Nat) : Int) ≤ b.memLimit; omega), fun f h => (by cases h)⟩ rfl hx
        simp only [List.flatten_cons, List.length_append] at this ⊢
        omega

theorem newBuffer_writable {m f : Int} (h : 0 ≤ m) : (newBuffer m f).Writable :=
  ⟨rfl, fun _ => h, fun f h => by cases h⟩

/-- Exactly which bodies within the limit a new transaction keeps: those that fit in
memory, and all of them if files can be made in the directory. -/
theorem C118_exact {d : Disk} {p : DirPath} {l : Limits} (hl : l.Sane) {d' : Disk} {t : Tx}
    (h : newTransactionOn d (some { limits := some l, tmpPath := some (some p) }) true = .ok (d', .ok t))
    (chunks : List Bytes) (hc : (chunks.flatten.length : Int) ≤ l.requestBody) :
    (∃ b, t.reqBody.writesOn (d'.io p) chunks = .ok (b, chunks.map fun _ => none)) ↔
      (chunks.flatten.length : Int) ≤ l.requestBodyInMem ∨ Usable d' p := by
  have e : t = newTransaction l := by
    rw [newTransactionOn_eq] at h
    repeat' split at h
    all_goals cases h
    rfl
  subst e
  have hw : (newTransaction l).reqBody.Writable := newBuffer_writable hl.1
  have e1 : (newTransaction l).reqBody.length = 0 := rfl
  have e2 : (newTransaction l).reqBody.memLimit = l.requestBodyInMem := rfl
  have e3 : (newTransaction l).reqBody.fileLimit = l.requestBody := rfl
  have e4 : (newTransaction l).reqBody.fileBuf = none := rfl
  rw [← Disk.tempFile_iff]
  constructor
  · rintro ⟨b, h⟩
    cases ht : d'.tempFile p with
    | true => exact .inr rfl
    | false =>
      left
      have := hw.writesOn_mem (io := d'.io p) (by simp [Disk.io, ht]) e4 h
      rw [e1, e2] at this
      omega
  · intro h'
    refine hw.writesOn (io := d'.io p) rfl rfl ?_ (by rw [e1, e3]; omega)
    rcases h' with h' | h'
    · exact .inr ⟨e4, by rw [e1, e2]; omega⟩
    · exact .inl (by simp [Disk.io, h'])

/-- C118, if the directory was made for the transaction, or files can be made in the one that
was there.  Missing: a file at `TmpPath`, or a directory without permission. -/
theorem C118_kept_partial {d : Disk} (ht : Tree d) {p : DirPath} (hp : Usable d p ∨ ∀ e, ¬ There d p e) {l : Limits} (hl : l.Sane) {d' : Disk} {t : Tx}
    (h : newTransactionOn d (some { limits := some l, tmpPath := some (some p) }) true = .ok (d', .ok t))
    (chunks : List Bytes) (hc : (chunks.flatten.length : Int) ≤ l.requestBody) :
    ∃ b, t.reqBody.writesOn (d'.io p) chunks = .ok (b, chunks.map fun _ => none) := by
  refine (C118_exact hl h chunks hc).2 (.inr ?_)
  obtain ⟨-, ⟨⟨e, h1⟩, rfl⟩ | ⟨h1, rfl⟩⟩ := (C118_created ht).1 h
  · rcases hp with hp | hp
    · exact hp
    · exact absurd h1 (hp e)
  · exact h1.usable ht

/-- A disk: a file and a directory without permission to write in the root; names of up to
8 bytes. -/
def sampleDisk : Disk :=
  { at_ := fun p =>
      if p = [] then some (.dir true true)
      else if p = [b!"note"] then some .file
      else if p = [b!"ro"] then some (.dir true false)
      else none
    refused := fun n => 8 < n.length }

theorem sampleDisk_tree : Tree sampleDisk := by
  refine ⟨⟨true, true, rfl⟩, fun p n e h => ?_⟩
  simp only [sampleDisk] at h
  have h0 : p ++ [n] ≠ [] := by simp
  rw [if_neg h0] at h
  cases p with
  | nil => exact ⟨true, true, rfl⟩
  | cons a p =>
    exfalso
    rw [if_neg (by simp), if_neg (by simp)] at h
    cases h

/-- With a file at `TmpPath` a transaction is made, but a body that does not fit in memory is
refused, though it is within the limit. -/
theorem C118_refuted : ¬ C118_statement := by
  intro h
  have hm : newTransactionOn sampleDisk (some { limits := some { requestBody := 8, requestBodyInMem := 2, responseBody := 8 }, tmpPath := some (some [b!"note"]) }) true =
      .ok (sampleDisk, .ok (newTransaction { requestBody := 8, requestBodyInMem := 2, responseBody := 8 })) := rfl
  have h1 := h sampleDisk sampleDisk_tree [b!"note"] { requestBody := 8, requestBodyInMem := 2, responseBody := 8 } ⟨by decide, by decide, by decide⟩ _ _ hm
    [b!"abc"] (by decide)
  have := (C118_exact ⟨by decide, by decide, by decide⟩ hm [b!"abc"] (by decide)).1 h1
  rcases this with h | h
  · exact absurd h (by decide)
  · have := h.is
    cases this

/-- A response body within the limit never needs a file: it is kept whatever the disk. -/
theorem C118_response {d : Disk} {p : DirPath} {l : Limits} (hl : l.Sane) {d' : Disk} {t : Tx}
    (h : newTransactionOn d (some { limits := some l, tmpPath := some (some p) }) true = .ok (d', .ok t)) (io : IOFault) (hw : io.writeFail = none) (hc : io.copyFail = none)
    (chunks : List Bytes) (hn : (chunks.flatten.length : Int) ≤ l.responseBody) :
    ∃ b, t.respBody.writesOn io chunks = .ok (b, chunks.map fun _ => none) := by
  have e : t = newTransaction l := by
    rw [newTransactionOn_eq] at h
    repeat' split at h
    all_goals cases h
    rfl
  subst e
  have hw' : (newTransaction l).respBody.Writable := newBuffer_writable hl.2.2
  have e1 : (newTransaction l).respBody.length = 0 := rfl
  have e2 : (newTransaction l).respBody.memLimit = l.responseBody := rfl
  have e3 : (newTransaction l).respBody.fileLimit = l.responseBody := rfl
  exact hw'.writesOn hw hc (.inr ⟨rfl, by rw [e1, e2]; omega⟩) (by rw [e1, e3]; omega)

/-- A second transaction can be made like the first, and changes nothing. -/
theorem C118_again {d : Disk} (ht : Tree d) {p : DirPath} {l l' : Limits} {d' : Disk} {t : Tx}
    (h : newTransactionOn d (some { limits := some l, tmpPath := some (some p) }) true = .ok (d', .ok t)) :
    newTransactionOn d' (some { limits := some l', tmpPath := some (some p) }) true = .ok (d', .ok (newTransaction l')) := by
  rw [newTransactionOn_eq] at h ⊢
  rcases hm : d.makeBufferDir (some p) with ⟨d1, _ | x⟩
  · rw [hm] at h
    simp only [Disk.makeBufferDir_again ht hm] at h
    cases h
    simp only [Disk.makeBufferDir_again ht hm]
  · rw [hm] at h
    cases h

/-- A path of two names that are not there, and the limits of a new engine. -/
example : Makeable sampleDisk [b!"a", b!"b"] :=
  ⟨by decide, [], b!"a", [b!"b"], rfl, fun q hq => ⟨true, by rw [List.prefix_nil.1 hq]; rfl⟩, rfl, rfl⟩

example : (∃ e, There sampleDisk [b!"note"] e) ∧ (∀ e, ¬ There sampleDisk [b!"a", b!"b"] e) ∧ newDefaultLimits.Sane :=
  ⟨⟨.file, Disk.stat_ok.1 rfl⟩, (fun e h => by cases h.is), by decide, by decide, by decide⟩

example : ∃ d', newTransactionOn sampleDisk (some { tmpPath := some (some [b!"a", b!"b"]) }) true = .ok (d', .ok (newTransaction newDefaultLimits)) ∧
    d'.at_ [b!"a"] = some (.dir true true) ∧ Usable d' [b!"a", b!"b"] := by
  have hm : Makeable sampleDisk [b!"a", b!"b"] :=
    ⟨by decide, [], b!"a", [b!"b"], rfl, fun q hq => ⟨true, by rw [List.prefix_nil.1 hq]; rfl⟩, rfl, rfl⟩
  exact ⟨_, (C118_created sampleDisk_tree).2 ⟨rfl, .inr ⟨hm, rfl⟩⟩, rfl, hm.usable sampleDisk_tree⟩

/-! ### C119 -/

/-- C119: if `NewTransaction` fails, the disk is as it was. -/
def C119_statement : Prop :=
  ∀ (d : Disk), Tree d → ∀ (e : Option EngineRec) (rs : Bool) (d' : Disk) (x : NewErr), newTransactionOn d e rs = .ok (d', .error x) → d' = d

/-- A path such that the directories before a name the file system refuses can be made. -/
def Spec.StuckAt (d : Disk) (p p1 : DirPath) : Prop := ∃ n p2, p = p1 ++ n :: p2 ∧ d.refused n = true ∧ Makeable d p1

theorem Disk.walk_before {d : Disk} : ∀ {p1 here p2 : DirPath}, d.walk here p1 = .error .notExist → p1 ≠ [] → d.walk here (p1 ++ p2) = .error .notExist := by
  intro p1
  induction p1 with
  | nil => intro here p2 _ h; exact absurd rfl h
  | cons n p1 ih =>
    intro here p2 h _
    simp only [List.cons_append, Disk.walk] at h ⊢
    cases hd : d.at_ here with
    | none => rfl
    | some e =>
      rw [hd] at h
      cases e with
      | file => cases h
      | dir s w =>
        simp only at h ⊢
        split at h
        · cases h
        · split at h
          · cases h
          · rename_i hs hn
            rw [if_neg hs, if_neg hn]
            cases p1 with
            | nil =>
              simp only [Disk.walk] at h
              cases ha : d.at_ (here ++ [n]) with
              | none => cases p2 <;> simp only [List.nil_append, Disk.walk, ha]
              | some e => rw [ha] at h; cases h
            | cons m p1 => exact ih h (by simp)

/-- Exactly when something is left behind. -/
theorem C119_exact {d : Disk} (ht : Tree d) {p : DirPath} {l : Limits} {d' : Disk} :
    (∃ x, newTransactionOn d (some { limits := some l, tmpPath := some (some p) }) true = .ok (d', .error x)) ∧ d' ≠ d ↔
      ∃ p1, StuckAt d p p1 ∧ d' = filled d p1 := by
  rw [newTransactionOn_eq]
  constructor
  · rintro ⟨⟨x, h⟩, hne⟩
    rcases hm : d.makeBufferDir (some p) with ⟨d1, _ | y⟩
    · rw [hm] at h
      simp only [Disk.makeBufferDir_again ht hm] at h
      cases h
    · rw [hm] at h
      cases h
      simp only [Disk.makeBufferDir] at hm
      split at hm
      · cases hm
      · rcases Disk.mkdirAll_fails ht hm with h | ⟨p1, n, p2, h1, h2, h3, h4⟩
        · exact absurd h hne
        · exact ⟨p1, ⟨n, p2, h1, h2, h3⟩, h4⟩
      · cases hm
        exact absurd rfl hne
  · rintro ⟨p1, ⟨n, p2, rfl, h1, h2⟩, rfl⟩
    obtain ⟨e, he⟩ := Disk.mkdirAll_stuck ht h1 h2 p2
    have hp : p1 ≠ [] := by
      rintro rfl
      obtain ⟨-, q, m, r, hq, -⟩ := h2
      simp at hq
    have hs : d.stat (p1 ++ n :: p2) = .error .notExist := Disk.walk_before h2.stat hp
    refine ⟨⟨.os e, by simp only [Disk.makeBufferDir, hs, he]⟩, fun hd => ?_⟩
    have h3 := (h2.usable ht).is
    rw [hd] at h3
    have h4 := h2.stat
    have : There d p1 (.dir true true) := hd ▸ h2.usable ht
    rw [Disk.stat_ok.2 this] at h4
    cases h4

/-- C119, if the file system refuses no name of the path. -/
theorem C119_unchanged_partial {d : Disk} (ht : Tree d) {e : Option EngineRec} {rs : Bool}
    (hn : ∀ r p, e = some r → r.tmpPath = some (some p) → ∀ n ∈ p, d.refused n = false) {d' : Disk} {x : NewErr}
    (h : newTransactionOn d e rs = .ok (d', .error x)) : d' = d := by
  cases e with
  | none => cases h; rfl
  | some r =>
    cases rs with
    | false => cases h; rfl
    | true =>
      obtain ⟨l, p⟩ := r
      cases p with
      | none => cases h
      | some p =>
        cases l with
        | none => cases h
        | some l =>
          cases p with
          | none => cases h; rfl
          | some p =>
            by_cases hd : d' = d
            · exact hd
            · obtain ⟨p1, ⟨n, p2, hp, h1, -⟩, -⟩ := (C119_exact ht).1 ⟨⟨x, h⟩, hd⟩
              have := hn _ p rfl rfl n (by rw [hp]; simp)
              rw [h1] at this
              cases this

/-- A name that is too long in a directory that is not there: the directory is made. -/
theorem C119_refuted : ¬ C119_statement := by
  intro h
  have hm : Makeable sampleDisk [b!"a"] :=
    ⟨by decide, [], b!"a", [], rfl, fun q hq => ⟨true, by rw [List.prefix_nil.1 hq]; rfl⟩, rfl, rfl⟩
  obtain ⟨⟨x, h1⟩, h2⟩ := (C119_exact sampleDisk_tree (p := [b!"a", b!"too-long-name"]) (l := newDefaultLimits)).2
    ⟨[b!"a"], ⟨b!"too-long-name", [], rfl, rfl, hm⟩, rfl⟩
  exact h2 (h _ sampleDisk_tree _ _ _ _ h1)

/-- The way through a file. -/
example : ∃ x, newTransactionOn sampleDisk (some { tmpPath := some (some [b!"note", b!"a"]) }) true = .ok (sampleDisk, .error x) := ⟨.os .notDir, rfl⟩

end Verif
