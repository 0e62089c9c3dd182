/-
Cases that meet the hypotheses of the theorems in Verif/Props/Chunked.lean.
-/
import Verif.Props.Chunked
import Verif.Props.CalleeExamples

namespace Htrpc
open Spec Http

namespace ChunkedExamples
open ToyJson ToyMethods
open ServerExamples (readsWhole_append readsWhole_other readsWhole_left smooth_of)
open HttpExamples (exCfg exService)
open InteropExamples (ex_value)

attribute [local instance] toyFloat toyUrl toyJson toyMethods chunkedWire

/-- A head that says that the body is in chunks, whatever its length. -/
def exHeadText : Bytes :=
  utf8 "X1 /users/7 HTTP/1.1\r\nX-Tag:  hi\t\r\nTRANSFER-encoding: Chunked\r\n\r\n".toList

/-- Two chunks of one byte, the last one, and a header behind it. -/
def exChunks : Bytes := utf8 "1\r\nh\r\n0001;a=b\r\ni\r\n0\r\nX: y\r\n\r\n".toList

def exText : Bytes := exHeadText ++ exChunks

def exHead : ReqHead :=
  ⟨.other 1, "/users/7".toList, [(utf8 "X-Tag".toList, utf8 "hi".toList),
    (utf8 "TRANSFER-encoding".toList, utf8 "Chunked".toList)]⟩

theorem ex_head : HeadText exHead exHeadText := by
  refine .intro (m := .other 1) (hb := utf8 "X-Tag:  hi\t\r\nTRANSFER-encoding: Chunked\r\n".toList)
    ⟨by decide, by decide⟩ ?_
  have h2 : HeaderText [(utf8 "TRANSFER-encoding".toList, utf8 "Chunked".toList)]
      (utf8 "TRANSFER-encoding: Chunked\r\n".toList) :=
    .cons (a := [32]) (b := []) ⟨by decide, by decide⟩
      (ex_value rfl rfl (by decide) (by decide) (by decide)) (by unfold Blanks; decide)
      (by unfold Blanks; decide) .nil
  exact .cons (a := [32, 32]) (b := [9]) ⟨by decide, by decide⟩
    (ex_value rfl rfl (by decide) (by decide) (by decide)) (by unfold Blanks; decide)
    (by unfold Blanks; decide) h2

theorem ex_fits : Fits exHead exHeadText := ⟨by decide, by decide⟩

theorem ex_chunks : ChunkText (utf8 "hi".toList) exChunks := by
  have h0 : ChunkText [] (utf8 "0\r\nX: y\r\n\r\n".toList) :=
    .last (l := [48]) (hs := [(utf8 "X".toList, utf8 "y".toList)]) (t := utf8 "X: y\r\n".toList)
      (.bare (.one (.digit (by decide) rfl)))
      (.cons (a := [32]) (b := []) ⟨by decide, by decide⟩
        (ex_value rfl rfl (by decide) (by decide) (by decide)) (by unfold Blanks; decide)
        (by unfold Blanks; decide) .nil)
  have h1 : ChunkText (utf8 "i".toList) (utf8 "0001;a=b\r\ni\r\n0\r\nX: y\r\n\r\n".toList) :=
    .chunk (l := utf8 "0001;a=b".toList) (c := utf8 "i".toList) (b := []) (by decide)
      (.extended (ds := utf8 "0001".toList) (x := utf8 "a=b".toList)
        (.more (ds := utf8 "000".toList) (n := 0) (b := 49) (k := 1)
          (.more (ds := utf8 "00".toList) (n := 0) (b := 48) (k := 0)
            (.more (ds := utf8 "0".toList) (n := 0) (b := 48) (k := 0) (.one (.digit (by decide) rfl))
              (.digit (by decide) rfl)) (.digit (by decide) rfl)) (.digit (by decide) rfl)) (by decide)) h0
  exact .chunk (l := [49]) (c := utf8 "h".toList) (b := utf8 "i".toList) (by decide)
    (.bare (.one (.digit (by decide) rfl))) h1

/-- Sizes are hexadecimal, in letters of either case. -/
example : SizeLine 171 (utf8 "aB".toList) :=
  .bare (.more (ds := [97]) (n := 10) (b := 66) (k := 11)
    (.one (.lower (k := 0) (by decide) rfl)) (.upper (k := 1) (by decide) rfl))

theorem ex_body : BodyText exHead.headers (utf8 "hi".toList) exChunks :=
  .chunked (x := [(utf8 "X-Tag".toList, utf8 "hi".toList)]) rfl (by decide) (by decide) (by decide)
    (by decide) ex_chunks

theorem ex_read : Wire.head exText = .done exHead exChunks := by
  refine limitHead_done.2 ⟨headText_read ex_head exChunks, ?_, by decide⟩
  rw [exText, List.length_append, Nat.add_sub_cancel]
  exact ex_fits.1

/-- `C122_read`. -/
example : Message exHead (utf8 "hi".toList) exText := C122_read _ _ _ _ ex_head ex_fits ex_body

def exVal : Val :=
  .struct (requestFields (some (.tuple [.str "7".toList])) none
    (some (.struct [("x-tag".toList, .str "hi".toList)])))

theorem ex_call : Judged exCfg exHead (.call exService exVal) :=
  .call (t := ⟨some ["users".toList, "7".toList], none⟩)
    (segs := ["users".toList, "7".toList]) (by decide) rfl (by rfl) (by rfl)

/-- The request arrives and is answered; then nothing arrives any more. -/
def exEvents : List ConnEvent :=
  [.connected true, .recv exText] ++
  [.input, .bodyRead exVal [], .handled (.unitVariant "Ok".toList) [4, 5], .written true]

def exSchedule (n : Nat) : ConnEvent := exEvents.getD n .input

theorem ex_upTo (n : Nat) : (∃ b, exEvents = upTo exSchedule n ++ b ∧ n < 6) ∨
    ∃ k, upTo exSchedule n = exEvents ++ List.replicate k .input := by
  by_cases h : n < 6
  · obtain ⟨b, hb⟩ := upTo_le exSchedule (Nat.le_of_lt h)
    exact .inl ⟨b, by rw [← hb]; rfl, h⟩
  · right
    obtain ⟨k, rfl⟩ := Nat.exists_eq_add_of_le (Nat.le_of_not_lt h)
    refine ⟨k, ?_⟩
    clear h
    induction k with
    | zero => rfl
    | succ k ih =>
      rw [← Nat.add_assoc, upTo_succ, ih, List.replicate_succ', List.append_assoc]
      congr 2
      rw [exSchedule, List.getD_eq_getElem?_getD, List.getElem?_eq_none]
      · rfl
      · show 6 ≤ 6 + k
        omega

theorem ex_start : ConnState.run exCfg .new [.connected true, .recv exText] =
    (⟨.readHead, .other 0, exText, none⟩, []) := by
  generalize exText = c
  rfl

theorem ex_message : ∃ f, Wire.head exText = .done exHead exChunks ∧ Wire.body exHead.headers = some f ∧
    f exChunks = .done (utf8 "hi".toList) [] := by
  obtain ⟨hd, bb, e, h1, f, h2, h3⟩ := C122_read _ _ _ _ ex_head ex_fits ex_body
  have h4 := ex_read
  refine ⟨f, h4, h2, ?_⟩
  have h5 : bodyReader exHead.headers = some f := h2
  rw [bodyReader, show header? "transfer-encoding" exHead.headers = some (utf8 "Chunked".toList) from by
    decide] at h5
  dsimp only at h5
  rw [if_pos (by decide)] at h5
  cases h5
  have := readChunks_text ex_chunks []
  rwa [List.append_nil] at this

theorem ex_run : ConnState.run exCfg .new exEvents = (⟨.readHead, .other 1, [], none⟩,
      [.read exHead, .invoked exService exVal exVal, .returned (.unitVariant "Ok".toList) [4, 5],
       .answer ⟨.ok, [contentLength [4, 5]], [4, 5]⟩, .written]) := by
  obtain ⟨f, h1, h2, h3⟩ := ex_message
  have hrun := C37_call_is_answered exCfg ⟨.readHead, .other 0, exText, none⟩ _ _ _
    exVal f _ _ _ (.unitVariant "Ok".toList) [4, 5]
    ⟨.ok, [contentLength [4, 5]], [4, 5]⟩ rfl h1 h2 h3 ex_call rfl
  rw [exEvents, conn_run_append, ex_start]
  simp only [hrun]
  rfl

theorem ex_whole : ReadsWhole exCfg (fun _ v b w => v = w ∧ b = utf8 "hi".toList) .new exEvents := by
  obtain ⟨f, h1, h2, h3⟩ := ex_message
  refine readsWhole_append (readsWhole_other (by simp)) ?_
  rw [ex_start]
  have h4 : (ConnState.run exCfg ⟨.readHead, .other 0, exText, none⟩ [.input]).1 =
      (ConnState.accept exCfg ⟨.readHead, .other 0, exChunks, none⟩ exHead).1 := by
    simp only [ConnState.run, ConnState.step, ConnState.pollHead, h1]
  refine readsWhole_append (es := [.input]) (readsWhole_other (by simp)) ?_
  rw [h4, accept_call ex_call h2 ⟨.readHead, .other 0, exChunks, none⟩]
  refine ⟨?_, readsWhole_other (by simp)⟩
  intro w rest he h s v hp f' hfe
  cases he
  cases hp
  cases h2.symm.trans hfe
  exact ⟨_, h3, rfl, rfl⟩

/-- `C122_answered`. -/
example : ∃ n, List.Forall₂ (fun (m : ReqHead × Bytes) (x : ReqHead × List ConnEffect) => x.1 = m.1 ∧
      ∃ segs ps d, TargetOf m.1.target segs ps ∧ Decided exCfg m.1 segs ps d ∧
        Settled (fun _ v b w => v = w ∧ b = utf8 "hi".toList) m.1 m.2 d x.2)
      [(exHead, utf8 "hi".toList)] (blocks (connLog exCfg (upTo exSchedule n))) := by
  have hms : ChunkedTexts [(exHead, utf8 "hi".toList)] (exText ++ []) :=
    .cons ex_head ex_fits ex_body .nil
  have harr : arriving exEvents = exText ++ [] := by
    unfold exEvents
    generalize exText = x
    rfl
  refine C122_answered exCfg (fun s hs => ?_) _ exSchedule _ _ hms (fun m hm => ?_)
    ⟨6, harr ▸ List.prefix_refl _⟩ (fun n => ?_) (fun n => smooth_of fun e he => ?_) (fun n _ => ?_)
  · rw [exCfg, List.mem_singleton] at hs
    subst hs
    simp [exService, requestFields, optField, WellNamed, WellNamedFields, WellNamedAll,
      DistinctNames]
  · rw [List.mem_singleton] at hm
    subst hm
    exact ⟨"users/7".toList, rfl, fun c s h => by cases h; decide⟩
  · rcases ex_upTo n with ⟨b, hb, -⟩ | ⟨k, hk⟩
    · have := ex_whole
      rw [hb] at this
      exact readsWhole_left this
    · rw [hk]
      refine readsWhole_append ex_whole (readsWhole_other fun e he w rest h => ?_)
      rw [List.eq_of_mem_replicate he] at h
      cases h
  · rw [upTo] at he
    obtain ⟨i, -, rfl⟩ := List.mem_map.1 he
    have h : exSchedule i ∈ exEvents ∨ exSchedule i = .input := by
      rw [exSchedule, List.getD_eq_getElem?_getD]
      cases hi : exEvents[i]? with
      | none => exact .inr rfl
      | some e => exact .inl (List.mem_of_getElem? hi)
    rcases h with h | h
    · rw [exEvents] at h
      simp only [List.cons_append, List.nil_append, List.mem_cons, List.not_mem_nil, or_false] at h
      rcases h with h | h | h | h | h | h <;> rw [h] <;>
        refine ⟨nofun, nofun, nofun, nofun, fun v body hv => ?_⟩ <;> cases hv
      exact ⟨_, rfl⟩
    · rw [h]
      exact ⟨nofun, nofun, nofun, nofun, nofun⟩
  · have hs : ∀ k, (ConnState.run exCfg .new (exEvents ++ List.replicate k .input)).1.phase =
        .readHead := by
      intro k
      rw [conn_run_append, ex_run]
      show (ConnState.run exCfg ⟨.readHead, .other 1, [], none⟩ (List.replicate k .input)).1.phase = _
      induction k with
      | zero => rfl
      | succ k ih => exact ih
    refine ⟨n + 6, by omega, .inl ?_⟩
    have he : exSchedule (n + 6) = .input := by
      rw [exSchedule, List.getD_eq_getElem?_getD, List.getElem?_eq_none]
      · rfl
      · show 6 ≤ n + 6
        omega
    rw [he]
    rcases ex_upTo (n + 6) with ⟨-, -, h⟩ | ⟨k, hk⟩
    · omega
    · rw [hk]
      exact .head (hs k)

/-- `C122_only`. -/
example : ∃ t bb, exText = t ++ bb ++ [] ∧ HeadText exHead t ∧ Fits exHead t ∧
    BodyText exHead.headers (utf8 "hi".toList) bb := by
  obtain ⟨f, h1, h2, h3⟩ := ex_message
  exact C122_only _ _ _ _ _ f h1 h2 h3

/-- `C122_one`: the last line is missing. -/
example : ∃ f, Wire.body exHead.headers = some f ∧ f (exChunks.take 23) = .more := by
  refine (C122_one _ (headText_ascii ex_head) _ _ ex_body).2 _ (exChunks.drop 23)
    (List.take_append_drop 23 exChunks).symm ?_
  decide +kernel

/-- The same request with a length. -/
def exHead' : ReqHead :=
  ⟨.other 1, "/users/7".toList, [(utf8 "content-length".toList, utf8 "2".toList),
    (utf8 "X-Tag".toList, utf8 "hi".toList)]⟩

/-- `C122_same`. -/
example (v : Val) : Decided exCfg exHead ["users".toList, "7".toList] [] (.call exService v) ↔
    Decided exCfg exHead' ["users".toList, "7".toList] [] (.call exService v) := by
  refine C122_same exCfg (fun s hs => ?_) exHead exHead' rfl (by decide) (by decide) (by decide) _ _ _
    (List.mem_singleton.2 rfl) v
  rw [exCfg, List.mem_singleton] at hs
  subst hs
  refine ⟨_, .struct _, fun u hu => ?_⟩
  simp only [requestFields, optField, List.append_nil, List.mem_append, List.mem_singleton,
    Prod.mk.injEq] at hu
  rcases hu with ⟨h, -⟩ | ⟨-, rfl⟩
  · exact absurd h (by decide)
  · exact ⟨rfl, by decide, by decide⟩

/-- A response in chunks. -/
def exResponse : Bytes :=
  utf8 "HTTP/1.1 404\r\nTransfer-Encoding: chunked\r\n\r\n".toList ++ exChunks

def exHeaders : List Header := [(utf8 "Transfer-Encoding".toList, utf8 "chunked".toList)]

theorem ex_response : ChunkedResponse (.other 0) 404 exHeaders (utf8 "hi".toList) exResponse := by
  refine .body (l := utf8 "HTTP/1.1 404".toList) (hb := utf8 "Transfer-Encoding: chunked\r\n".toList)
    (by decide) (.bare (ds := "404".toList) ⟨by decide, by decide⟩ (by decide)) ?_
    (.chunked (x := []) rfl (by decide) (by decide) (by decide) (by decide) ex_chunks)
  exact .cons (a := [32]) (b := []) ⟨by decide, by decide⟩
    (ex_value rfl rfl (by decide) (by decide) (by decide)) (by unfold Blanks; decide)
    (by unfold Blanks; decide) .nil

theorem ex_hears : hearChunked (.other 0) exResponse = [.head 404 exHeaders, .body (utf8 "hi".toList)] := by
  have := hearChunked_text ex_response []
  rw [List.append_nil] at this
  exact this

def exResults : List IoResult :=
  [.connected, .notReady, .written, .head 404 exHeaders, .notReady, .body (utf8 "hi".toList)]

theorem ex_results : exResults.filter Happened =
    .connected :: .written :: hearChunked exProc.method exResponse := by
  show _ = .connected :: .written :: hearChunked (.other 0) exResponse
  rw [ex_hears]
  rfl

/-- `C122_completes`, `C122_completed`. -/
example : ∃ w, (callRun exProc (.new exCallArgs [1]) exResults).2 = .ready w (utf8 "hi".toList) ∧
    ∃ c hs text rest, exResponse = text ++ rest ∧
      ChunkedResponse exProc.method c hs (utf8 "hi".toList) text ∧ ReadsResponse c hs true exProc.resTy w := by
  obtain ⟨r, hr⟩ := exCall_sent [1]
  have hw : WellNamed exProc.resTy := by simp [exProc, WellNamed, WellNamedVariants, WellNamedVariant]
  rcases C122_completes exProc hw exCallArgs [1] r hr 404 exHeaders (utf8 "hi".toList) exResponse []
    ex_response exResults (by rw [List.append_nil]; exact ex_results) with ⟨w, h1, h2⟩ | ⟨-, h⟩
  · exact ⟨w, h1, C122_completed exProc hw exCallArgs [1] exResponse exResults ex_results w _ h1⟩
  · exact absurd (.unit (by decide) rfl) (h (.unitVariant "NotFound".toList))

/-- `C122_waits`: one byte is missing. -/
example : ∃ st, (callRun exProc (.new exCallArgs []) (.connected :: .written ::
    hearChunked exProc.method exResponse.dropLast)).2 = .pending st := by
  obtain ⟨r, hr⟩ := exCall_sent []
  have ht := ex_response
  rw [show exResponse = exResponse.dropLast ++ [10] by decide +kernel] at ht
  refine C122_waits exProc exCallArgs [] r hr 404 exHeaders _ _ _ ht (by decide) _ ?_
  rcases hearChunked_prefix ht (by decide) with h | ⟨-, h⟩
  · show _ = .connected :: .written :: hearChunked (.other 0) exResponse.dropLast
    rw [show hearChunked exProc.method = hearChunked (.other 0) from rfl, h]
    rfl
  · show _ = .connected :: .written :: hearChunked (.other 0) exResponse.dropLast
    rw [show hearChunked exProc.method = hearChunked (.other 0) from rfl, h]
    rfl

end ChunkedExamples

end Htrpc
