import Verif.Model.Ieee
/-
  Token streams and the token utilities of the derive macros (/repo/json_derive/parse/src/utils.rs).
  A `proc_macro::TokenStream` is the list its iterator gives; spans and `Spacing` are dropped (the code never reads them).
-/
namespace RJ

/-- `proc_macro::Delimiter` (std). -/
inductive Delim
  | paren | brace | bracket | none
  deriving DecidableEq, Repr

/-- `proc_macro::TokenTree` (std): a punctuation character, an identifier (its text, with `r#` for raw identifiers),
a literal (its source text, as `Literal::to_string` returns it), a delimited group. -/
inductive Tok
  | punct (c : Char)
  | ident (s : Str)
  | lit (s : Str)
  | group (d : Delim) (ts : List Tok)

/-- `punct_eq`, /repo/json_derive/parse/src/utils.rs:6-13. -/
def Tok.isPunct (c : Char) : Tok → Bool
  | .punct d => d = c
  | _ => false

/-- `TokenTree::Ident(ident) if &ident.to_string() == s` (e.g. /repo/json_derive/parse/src/field.rs:259). -/
def Tok.isIdent (s : String) : Tok → Bool
  | .ident x => x = s.toList
  | _ => false

/-- `TokenTree::Group(group) if group.delimiter() == d` (e.g. /repo/json_derive/parse/src/field.rs:262). -/
def Tok.isGroup (d : Delim) : Tok → Bool
  | .group e _ => e = d
  | _ => false

/-- `chars.zip(iter.clone()).all(..)`, /repo/json_derive/parse/src/utils.rs:83-90: the remaining characters of the separator against the
following tokens; stops at the shorter of the two. -/
def matchRest : List Char → List Tok → Bool
  | c :: cs, t :: ts => t.isPunct c && matchRest cs ts
  | _, _ => true

/-- The two `sep` arms, /repo/json_derive/parse/src/utils.rs:68-100, for a punct `p` met outside angle brackets, followed by `rest`:
is this a separator?  (`sep` is never empty.) -/
def hitSep (sep : List Char) (p : Char) (rest : List Tok) : Bool :=
  match sep with
  | [] => false
  | c :: cs => p = c && matchRest cs rest

/-- The two nested loops of `split_tokens_by`, /repo/json_derive/parse/src/utils.rs:32-119.  `skip`: tokens of a multi-character
separator still to be dropped (`iter.nth(sep.len() - 2)`, :97); `arrow`: the next token is the `>` of a `->` and is taken as it is (:52-60);
`n`: bracket depth (`i32`, modelled as `Int`); `inner`: the piece collected so far, reversed.  A piece ends at the end of the stream or at a
separator; the outer loop stops when nothing follows (:111-113). -/
def splitGo (sep : List Char) : Nat → Bool → Int → List Tok → List Tok → List (List Tok)
  | _, _, _, inner, [] => [inner.reverse]
  | skip, arrow, n, inner, t :: ts =>
    if skip > 0 then splitGo sep (skip - 1) false n inner ts
    else if arrow then splitGo sep 0 false n (t :: inner) ts
    else
      match t with
      | .punct c =>
        if c = '-' then splitGo sep 0 (ts.head?.any (Tok.isPunct '>')) n (t :: inner) ts
        else if c = '<' then splitGo sep 0 false (n + 1) (t :: inner) ts
        else if c = '>' then splitGo sep 0 false (n - 1) (t :: inner) ts
        else if n = 0 ∧ hitSep sep c ts = true then
          if (ts.drop (sep.length - 1)).isEmpty then [inner.reverse]
          else inner.reverse :: splitGo sep (sep.length - 1) false n [] ts
        else splitGo sep 0 false n (t :: inner) ts
      | _ => splitGo sep 0 false n (t :: inner) ts

/-- `split_tokens_by`, /repo/json_derive/parse/src/utils.rs:22-119 (the same function is at
/repo/json_derive/quote/src/lib.rs:1202-1271). -/
def splitTokensBy (ts : List Tok) (sep : String) : List (List Tok) := splitGo sep.toList 0 false 0 [] ts

end RJ
