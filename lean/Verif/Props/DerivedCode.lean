import Verif.Proof.DerivedCode
import Verif.Props.DeriveCases
/-
  C55: the code the derive macros emit.
-/
namespace RJ
open Spec
set_option maxRecDepth 100000

theorem members_of : ∀ (fs : List Field) (xs : List FieldItem), AllTwo FieldIs fs xs →
    ∃ ms : List (Str × Field), ms.map (·.2) = fs.filter (fun f => !f.ignored) ∧
      (∀ m ∈ ms, encodeKey m.1 = some m.2.key ∧ decodeKey m.1 = some m.2.key) ∧
      collectO ((xs.filter FieldItem.kept).map (fun x => x.key.map (fun k => (k, x.ident)))) = some (ms.map (fun m => (m.1, m.2.name))) ∧
      collectO ((xs.filter FieldItem.kept).map (fun x => x.key.map (fun k => (k, x.ident, x.ty.usedTy)))) = some (ms.map (fun m => (m.1, m.2.name, m.2.ty))) ∧
      (xs.filter (fun x => !x.kept)).map FieldItem.ident = (fs.filter (fun f => f.ignored)).map Field.name
  | [], [], _ => ⟨[], rfl, by simp, rfl, rfl, rfl⟩
  | f :: fs, x :: xs, h => by
    obtain ⟨ms, h1, h2, h3, h4, h5⟩ := members_of fs xs h.2
    obtain ⟨hi, ht, hk, k, hk1, hk2, hk3⟩ := h.1
    by_cases hg : f.ignored = true
    · refine ⟨ms, ?_, h2, ?_, ?_, ?_⟩
      · rw [List.filter_cons_of_neg (by rw [hg]; decide)]; exact h1
      · rw [List.filter_cons_of_neg (by rw [hk, hg]; decide)]; exact h3
      · rw [List.filter_cons_of_neg (by rw [hk, hg]; decide)]; exact h4
      · rw [List.filter_cons_of_pos (by rw [hk, hg]; decide), List.filter_cons_of_pos (by rw [hg]), List.map_cons, List.map_cons, h5, hi]
    · have hg : f.ignored = false := by simpa using hg
      refine ⟨(k, f) :: ms, ?_, ?_, ?_, ?_, ?_⟩
      · rw [List.filter_cons_of_pos (by rw [hg]; decide), List.map_cons, h1]
      · intro m hm
        rcases List.mem_cons.1 hm with rfl | hm
        · exact ⟨hk2, hk3⟩
        · exact h2 m hm
      · rw [List.filter_cons_of_pos (by rw [hk, hg]; decide), List.map_cons, hk1, Option.map_some, collectO, h3, hi]; rfl
      · rw [List.filter_cons_of_pos (by rw [hk, hg]; decide), List.map_cons, hk1, Option.map_some, collectO, h4, hi, ht]; rfl
      · rw [List.filter_cons_of_neg (by rw [hk, hg]; decide), List.filter_cons_of_neg (by rw [hg]; decide)]; exact h5
  | [], _ :: _, h => h.elim
  | _ :: _, [], h => h.elim

/-- C55: for every struct with named fields that the macros understand, `#[derive(JsonEncode)]` emits exactly one implementation of `ToJson` for that type,
with the struct's own parameters, bounds and where clauses; its body inserts every field that is not ignored, in declaration order, under the field's key, and nothing else;
`#[derive(JsonDecode)]` emits exactly one implementation of `FromJson`, whose body reads each such field at its declared type under the same key and
takes the default for each ignored one. -/
theorem C55_code (L : Lexer) (hL : LexerOk L) {s : Struct} (h : s.Ok) (hn : ReadsIdent L s.name) (hf : ∀ f ∈ s.fields, ReadsIdent L f.name) :
    ∃ ms, MembersOf s ms ∧ encodeTokens L s.toks = some (encodeCode L s ms) ∧ decodeTokens L s.toks = some (decodeCode L s ms) := by
  obtain ⟨it, xs, h1, h2, _, h3, h4, h5, h6, h7⟩ := struct_parse h
  obtain ⟨ms, m1, m2, m3, m4, m5⟩ := members_of _ _ h4
  have parts : StructParts L it s := ⟨h2, h5, h6, h7, hn⟩
  have hm : ∀ m ∈ ms, ReadsIdent L m.2.name := by
    intro m hm
    have : m.2 ∈ s.fields.filter (fun f => !f.ignored) := by rw [← m1]; exact List.mem_map_of_mem hm
    exact hf _ (List.mem_of_mem_filter this)
  have hat1 : NotAt (renderAll encodeTmpl) := by
    rw [encodeTmpl_render]; unfold encodeSrc; rw [lexCode_ofList]; unfold NotAt; decide +kernel
  have hat2 : NotAt (renderAll decodeTmpl) := by
    rw [decodeTmpl_render]; unfold decodeSrc; rw [lexCode_ofList]; unfold NotAt; decide +kernel
  refine ⟨ms, ⟨m1, fun m hm => (m2 m hm).2⟩, ?_, ?_⟩
  · unfold encodeTokens
    rw [h1]; dsimp only; rw [h3]; dsimp only; rw [m3, Option.bind_some, ← encodeTmpl_render, quoteMacro_plain _ _ _ _ hat1,
      renderAll_ok _ _ _ encodeTmpl_ok _ _ (Nat.lt_succ_self _), encodeTmpl_means hL parts ms (fun m h => ⟨(m2 m h).1, hm m h⟩)]
  · unfold decodeTokens
    rw [h1]; dsimp only; rw [h3]; dsimp only
    rw [m4, Option.bind_some, m5, show s.fields.filter (fun f => f.ignored) = s.ignored from rfl, ← decodeTmpl_render, quoteMacro_plain _ _ _ _ hat2,
      renderAll_ok _ _ _ decodeTmpl_ok _ _ (Nat.lt_succ_self _),
      decodeTmpl_means hL parts ms (fun m h => ⟨(m2 m h).2, hm m h⟩) (fun f h => hf f (List.mem_of_mem_filter h))]

/-! ### Beside C55: a lexer, and the struct of the README -/

mutual
/-- A token with its spacing (every punctuation character alone). -/
def spaced : Tok → QTok
  | .punct c => .punct c false
  | .ident s => .ident s
  | .lit s => .lit s
  | .group d ts => .group d (spacedAll ts)
def spacedAll : List Tok → List QTok
  | [] => []
  | t :: ts => spaced t :: spacedAll ts
end

/-- A lexer: string literals by the rules of Rust, `.to_string()` after them, everything else one identifier. -/
def sampleLexer : Lexer where
  text s :=
    match s with
    | '"' :: r =>
      match lexStr (r.length + 1) r with
      | some (_, rest) =>
        if rest = [] then some [.lit s]
        else if rest = ".to_string()".toList then some (.lit (s.take (s.length - rest.length)) :: code ".to_string()")
        else none
      | none => none
    | s => some [.ident s]
  printed := spacedAll

theorem sampleLexer_ok : LexerOk sampleLexer where
  empty := rfl
  literal := by
    intro t v h
    unfold decodeKey at h
    have e : (t ++ ['"']).length + 1 = t.length + 2 := by simp
    simp only [sampleLexer, e]
    split at h
    · rename_i v' hv
      simp only [hv, if_true, strLit]
    · exact absurd h (by simp)
  call := by
    intro t v h
    unfold encodeKey at h
    have e : (t ++ "\".to_string()".toList).length + 1 = t.length + 1 + ".to_string()".toList.length + 1 := by
      rw [List.length_append, show "\".to_string()".toList.length = 13 from rfl, show ".to_string()".toList.length = 12 from rfl]
    have e2 : t ++ "\".to_string()".toList = t ++ ['"'] ++ ".to_string()".toList := by rw [List.append_assoc]; rfl
    simp only [sampleLexer, e]
    simp only [e2] at h ⊢
    split at h
    · rename_i v' r hv
      split at h
      · rename_i hr
        subst hr
        rw [hv]
        dsimp only
        rw [if_neg (by decide), if_pos rfl]
        congr 2
        unfold strLit
        congr 1
        have : ('"' :: (t ++ ['"'] ++ ".to_string()".toList)) = ('"' :: (t ++ ['"'])) ++ ".to_string()".toList := rfl
        rw [this, List.length_append, Nat.add_sub_cancel, List.take_left']
        rfl
      · exact absurd h (by simp)
    · exact absurd h (by simp)

example : ReadsIdent sampleLexer readmeItem.name ∧ ∀ f ∈ readmeItem.fields, ReadsIdent sampleLexer f.name := by
  refine ⟨Or.inr rfl, ?_⟩
  intro f hf
  simp only [readmeItem, List.mem_cons, List.not_mem_nil, or_false] at hf
  rcases hf with rfl | rfl | rfl | rfl <;> exact Or.inr rfl

/-- Beside C55: what `#[derive(JsonEncode, JsonDecode)]` emits for the struct of the README, read as source text. -/
theorem C55_readme :
    encodeTokens sampleLexer readmeItem.toks = some (code r#"
      impl json::ToJson for Item {
        fn to_json(&self) -> json::Json {
          let map = std::collections::HashMap::with_capacity(3);
          let mut js = json::Json::Object(map);
          match js.add_option("id".to_string(), json::ToJson::to_json(&self._id), true) { Ok(_) => (), Err(_) => unreachable!() };
          match js.add_option("name".to_string(), json::ToJson::to_json(&self.name), true) { Ok(_) => (), Err(_) => unreachable!() };
          match js.add_option("vec".to_string(), json::ToJson::to_json(&self.vec), true) { Ok(_) => (), Err(_) => unreachable!() };
          js
        }
      }"#) ∧
    decodeTokens sampleLexer readmeItem.toks = some (code r#"
      impl json::FromJson for Item {
        fn from_json(json: &json::Json) -> Result<Self, json::Error> {
          match json {
            json::Json::Object(obj) => {
              Ok(Item {
                _id: {
                  if let Some((v, _)) = obj.get("id") { <i32 as json::FromJson>::from_json(v)? }
                  else { return Err(json::Error::new(json::ErrorKind::MissingKey, format!("missing key \"{}\".", "id"))); }
                },
                name: {
                  if let Some((v, _)) = obj.get("name") { <String as json::FromJson>::from_json(v)? }
                  else { return Err(json::Error::new(json::ErrorKind::MissingKey, format!("missing key \"{}\".", "name"))); }
                },
                vec: {
                  if let Some((v, _)) = obj.get("vec") { <Vec<i32> as json::FromJson>::from_json(v)? }
                  else { return Err(json::Error::new(json::ErrorKind::MissingKey, format!("missing key \"{}\".", "vec"))); }
                },
                opt: std::default::Default::default(),
              })
            }
            other => Err(json::Error::new(json::ErrorKind::ConvertError, format!("cannot convert {} to {}.", other._kind(), stringify!(Item)))),
          }
        }
      }"#) := by
  unfold encodeTokens decodeTokens sampleLexer encodeSrc decodeSrc code
  repeat rw [lexCode_ofList]
  constructor <;> decide +kernel

end RJ
