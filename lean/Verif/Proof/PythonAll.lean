import Verif.Proof.PythonMore
/-
All interpreters, with arguments and variables.
-/
namespace Pstack.Python
open Pstack.Spec

theorem threadFields_at {cfg : Config} {mem : Mem} {a frame next id : Nat} {title : Text} (h : ThreadHead cfg mem a title frame next) (hid : NumAt mem (a + cfg.lay.t_id) 8 id) :
    threadFields cfg mem a = .ok (id, frame, next) := by
  obtain ⟨l, hl1, hl2⟩ := readObj_present h.present
  unfold threadFields
  rw [hl1, Res.bind_ok, field_at hl2 hid h.sizes.1, Res.bind_ok, field_at hl2 h.frame h.sizes.2.1, Res.bind_ok, field_at hl2 h.next h.sizes.2.2, Res.bind_ok]
  rfl

theorem threadTitle_at {cfg : Config} {mem : Mem} {id : Nat} {title : Text} (h : TitleOf cfg mem id title) : threadTitle cfg mem id = .ok title := by
  unfold threadTitle
  rcases h with ⟨h0, ht⟩ | ⟨h0, ht⟩ | ⟨off, tid, h0, ho, hfit, htid, ht⟩
  · rw [ht]
    cases cfg.tidOffset with
    | none => rfl
    | some off => dsimp only; rw [if_neg (by simp [h0])]; rfl
  · rw [h0, ht]; rfl
  · rw [ho]
    obtain ⟨l, hl1, hl2⟩ := readObj_present (numAt_present htid.2.2)
    have e := int_at (off := 0) (w := 4) (by decide) hl2 (by simpa using htid) (by omega)
    rw [List.drop_zero, List.take_of_length_le (Nat.le_of_eq (bytesAt_length hl2))] at e
    dsimp only
    rw [if_pos h0, Nat.mod_eq_of_lt (by unfold W64; omega), hl1, Res.bind_ok, e, ht]
    rfl

theorem threadHead_writes {cfg : Config} {mem : Mem} {a frame next : Nat} {title t : Text} {S S' : List Nat} (h : ThreadHead cfg mem a title frame next)
    (hr : Renders cfg mem 0 S (.obj frame) t S') : WritesNext cfg mem 0 S (fun n => printThread cfg mem n a) (title ++ "\n".toList ++ t) S' next := by
  intro st hd hS ht
  obtain ⟨id, hid, htitle⟩ := h.id
  obtain ⟨N, st1, h1, h2⟩ := renders hr ((st.put title).put "\n".toList) hd hS ht
  refine ⟨N, st1, ?_, ?_, h2.depth, h2.visited, h2.types⟩
  · show printThread cfg mem N a st = _
    unfold printThread
    rw [threadFields_at h hid]
    dsimp only
    rw [threadTitle_at htitle]
    dsimp only
    have h1' : print cfg mem N frame ((st.put title).put "\n".toList) = some (.ok st1) := h1
    rw [h1']
    rfl
  · rw [h2.out]
    show st.out ++ title ++ "\n".toList ++ _ = _
    simp [List.append_assoc]

theorem threadsList_writes {cfg : Config} {mem : Mem} {T : List Nat} {a : Nat} {S S' : List Nat} {t : Text} (h : ThreadsList cfg mem T a S t S') :
    Writes cfg mem 0 S (fun n => threadLoop cfg mem n n T a) t S' := by
  induction h with
  | none T S =>
      intro st hd hS ht
      exact ⟨1, st, by simp [threadLoop], by simp, rfl, hS, ht⟩
  | last T a S title frame next t S' h hr hend =>
      intro st hd hS ht
      obtain ⟨N, st1, h1, h2⟩ := threadHead_writes h hr st hd hS ht
      have h1' : printThread cfg mem N a st = some (.ok (st1, next)) := h1
      refine ⟨N + 1, st1, ?_, h2⟩
      show threadLoop cfg mem (N + 1) (N + 1) T a st = _
      unfold threadLoop
      rw [if_neg h.notNull, printThread_mono (Nat.le_succ N) h1']
      dsimp only
      by_cases hm : next ∈ T
      · rw [if_pos hm]
      · rw [if_neg hm, if_pos (by rcases hend with hend | hend; exact absurd hend hm; simp only [List.length_cons]; omega)]
  | more T a S title frame next t S' t' S'' h hr hn hlen _ ih =>
      intro st hd hS ht
      obtain ⟨N, st1, h1, h2⟩ := threadHead_writes h hr st hd hS ht
      have h1' : printThread cfg mem N a st = some (.ok (st1, next)) := h1
      obtain ⟨M, st2, h3, h4⟩ := ih (st1.put "\n".toList) (by show st1.depth = _; rw [h2.depth]; exact hd) h2.visited h2.types
      refine ⟨max N M + 1, st2, ?_, ?_, ?_, h4.visited, h4.types⟩
      · show threadLoop cfg mem (max N M + 1) (max N M + 1) T a st = _
        unfold threadLoop
        rw [if_neg h.notNull, printThread_mono (by omega) h1']
        dsimp only
        rw [if_neg hn, if_neg (by simp only [List.length_cons]; omega)]
        exact threadLoop_mono (by omega) _ _ _ _ _ _ (by omega) h3
      · rw [h4.out]
        show st1.out ++ "\n".toList ++ t' = _
        rw [h2.out]
        simp [List.append_assoc]
      · rw [h4.depth]; show st1.depth = _; exact h2.depth

theorem interpsList_writes {cfg : Config} {mem : Mem} {modules : Bool} {a : Nat} {S : List Nat} {t : Text} (h : InterpsList cfg mem modules a S t) :
    ∃ S', Writes cfg mem 0 S (fun n => interpLoop cfg mem modules n n a) t S' := by
  induction h with
  | none S => exact ⟨S, fun st hd hS ht => ⟨1, st, by simp [interpLoop], by simp, rfl, hS, ht⟩⟩
  | cons a next head m S t S' tm S'' t' ha hp hth hm1 hm2 _ ih =>
      obtain ⟨S3, ih⟩ := ih
      refine ⟨S3, fun st hd hS ht => ?_⟩
      have hf : interpFields mem a = .ok (next, head, m) := interpFields_at hp
      obtain ⟨N1, st1, h1, h2⟩ := threadsList_writes hth (st.put ("---- interpreter @".toList ++ hex a ++ " -----\n".toList)) hd hS ht
      have h1' : threadLoop cfg mem N1 N1 [head] head (st.put ("---- interpreter @".toList ++ hex a ++ " -----\n".toList)) = some (.ok st1) := h1
      have hone : ∃ N st2, printInterp cfg mem N a modules st = some (.ok (st2, next)) ∧ Wrote cfg mem st1 tm S'' st2 := by
        cases hmod : modules with
        | false =>
            obtain ⟨rfl, rfl⟩ := hm2 hmod
            refine ⟨N1, st1, ?_, by simp, rfl, h2.visited, h2.types⟩
            unfold printInterp
            rw [hf]
            dsimp only
            rw [h1']
            rfl
        | true =>
            obtain ⟨x, rfl, hr⟩ := hm1 hmod
            obtain ⟨N2, st2, h3, h4⟩ := renders hr (st1.put "---- modules:\n".toList) (by show st1.depth = _; rw [h2.depth]; exact hd) h2.visited h2.types
            have h3' : print cfg mem N2 m (st1.put "---- modules:\n".toList) = some (.ok st2) := h3
            refine ⟨max N1 N2, st2, ?_, ?_, h4.depth, h4.visited, h4.types⟩
            · unfold printInterp
              rw [hf]
              dsimp only
              rw [threadLoop_mono (Nat.le_max_left _ _) _ _ _ _ _ _ (Nat.le_max_left _ _) h1']
              dsimp only
              rw [if_pos rfl, print_mono (Nat.le_max_right _ _) h3']
              rfl
            · rw [h4.out]
              show st1.out ++ "---- modules:\n".toList ++ x = _
              rw [List.append_assoc]
      obtain ⟨N, st2, h3, h4⟩ := hone
      obtain ⟨M, st3, h5, h6⟩ := ih st2 (by rw [h4.depth, h2.depth]; exact hd) h4.visited h4.types
      refine ⟨max N M + 1, st3, ?_, ?_, ?_, h6.visited, h6.types⟩
      · show interpLoop cfg mem modules (max N M + 1) (max N M + 1) a st = _
        unfold interpLoop
        rw [if_neg ha, printInterp_mono (by omega) h3]
        exact interpLoop_mono (by omega) _ _ _ _ _ (by omega) h5
      · rw [h6.out, h4.out, h2.out]
        show st.out ++ ("---- interpreter @".toList ++ hex a ++ " -----\n".toList) ++ t ++ tm ++ t' = _
        simp [List.append_assoc, hex]
      · rw [h6.depth, h4.depth, h2.depth]; rfl

end Pstack.Python
