import Verif.Regex

/-!
# `/repo/md_toc/constants.py`
-/

namespace MdToc

/-- The keys of the dictionary `parser`, `/repo/md_toc/constants.py` 67-291.
Simplification: other parser names (which make `build_toc` raise `KeyError` at
`/repo/md_toc/api.py` 266) are not representable. -/
inductive Parser where
  | github | cmark | gitlab | commonmarker | goldmark | redcarpet
  deriving DecidableEq, Repr

/-- `parser in ['github', 'cmark', 'gitlab', 'commonmarker', 'goldmark']`,
e.g. `/repo/md_toc/api.py` 819. -/
def Parser.cmarkLike : Parser → Bool
  | .redcarpet => false
  | _ => true

/-- `parser in ['github', 'commonmarker']`, `/repo/md_toc/api.py` 1182. -/
def Parser.gfm : Parser → Bool
  | .github | .commonmarker => true
  | _ => false

/-- `md_parser[parser]['list']['ordered']['closing_markers']`,
`/repo/md_toc/constants.py` 71, 168. -/
def Parser.closingMarkers : Parser → List Str
  | .redcarpet => [['.']]
  | _ => [['.'], [')']]

/-- `md_parser[parser]['list']['ordered']['default_closing_marker']`,
`/repo/md_toc/constants.py` 75, 169. -/
def defaultClosingMarker : Str := ['.']

/-- `md_parser[parser]['list']['unordered']['bullet_markers']`,
`/repo/md_toc/constants.py` 78, 172. -/
def bulletMarkers : List Str := [['-'], ['+'], ['*']]

/-- `md_parser[parser]['list']['unordered']['default_marker']`,
`/repo/md_toc/constants.py` 79, 173. -/
def defaultBullet : Str := ['-']

/-- `md_parser['github']['list']['ordered']['max_marker_number']`,
`/repo/md_toc/constants.py` 74. -/
def maxMarkerNumber : Nat := 999999999

/-- `min_marker_number`, `/repo/md_toc/constants.py` 73, 167. -/
def minMarkerNumber : Nat := 0

/-- `md_parser['github']['link']['max_chars_label']`, `/repo/md_toc/constants.py` 83. -/
def maxCharsLabel : Nat := 999

/-- `md_parser['github']['header']['max_space_indentation']`,
`/repo/md_toc/constants.py` 86. -/
def maxSpaceIndentation : Nat := 3

/-- `md_parser[parser]['header']['max_levels']`, `/repo/md_toc/constants.py` 87, 178. -/
def maxLevels : Nat := 6

/-- `md_parser['github']['code_fence']['min_marker_characters']`,
`/repo/md_toc/constants.py` 95. -/
def minMarkerCharacters : Nat := 3

namespace Rx
open Re

/-- `__cmark_spacechar`, `/repo/md_toc/constants.py` 50. -/
def spacechar : Re := .cls (fun c => c == ' ' || c == '\t' || c == '\x0b' || c == '\x0c' || c == '\r' || c == '\n')

/-- `[A-Za-z]` -/
def letter : Re := .cls isAsciiAlpha

/-- `__cmark_tagname`, `/repo/md_toc/constants.py` 51. -/
def tagname : Re := .seq letter (.star (.cls (fun c => isAsciiAlpha c || isAsciiDigit c || c == '-')))

/-- `__cmark_attributename`, `/repo/md_toc/constants.py` 52. -/
def attributename : Re :=
  .seq (.cls (fun c => isAsciiAlpha c || c == '_' || c == ':'))
    (.star (.cls (fun c => isAsciiAlpha c || isAsciiDigit c || c == ':' || c == '.' || c == '_' || c == '-')))

/-- `__cmark_unquotedvalue`, `/repo/md_toc/constants.py` 53. -/
def unquotedvalue : Re :=
  plus (.cls (fun c => !(c == ' ' || c == '\t' || c == '\r' || c == '\n' || c == '\x0b' || c == '\x0c' ||
    c == '"' || c == '\'' || c == '=' || c == '<' || c == '>' || c == '`' || c == '\x00')))

/-- `__cmark_singlequotedvalue`, `/repo/md_toc/constants.py` 54. -/
def singlequotedvalue : Re :=
  seqs [chr '\'', .star (.cls (fun c => !(c == '\'' || c == '\x00'))), chr '\'']

/-- `__cmark_doublequotedvalue`, `/repo/md_toc/constants.py` 55. -/
def doublequotedvalue : Re :=
  seqs [chr '"', .star (.cls (fun c => !(c == '"' || c == '\x00'))), chr '"']

/-- `__cmark_attributevalue`, `/repo/md_toc/constants.py` 56. -/
def attributevalue : Re := alts [unquotedvalue, singlequotedvalue, doublequotedvalue]

/-- `__cmark_attributevaluespec`, `/repo/md_toc/constants.py` 57. -/
def attributevaluespec : Re := seqs [.star spacechar, chr '=', .star spacechar, attributevalue]

/-- `__cmark_attribute`, `/repo/md_toc/constants.py` 58.  The `?` appended to the
value specification applies to its last group only, so that `=` is mandatory. -/
def attr : Re :=
  seqs [plus spacechar, attributename, .star spacechar, chr '=', .star spacechar, opt attributevalue]

/-- `__cmark_opentag`, `/repo/md_toc/constants.py` 59. -/
def opentag : Re := seqs [tagname, .star attr, .star spacechar, opt (chr '/'), chr '>']

/-- `__cmark_closetag`, `/repo/md_toc/constants.py` 60. -/
def closetag : Re := seqs [chr '/', tagname, .star spacechar, chr '>']

/-- `SPACETAB`, `/repo/md_toc/constants.py` 107. -/
def spacetab : Re := .cls (fun c => c == '\t' || c == ' ')

/-- `LE`, `/repo/md_toc/constants.py` 109. -/
def le : Re := alts [chr '\n', chr '\r', .seq (chr '\r') (chr '\n')]

/-- `AT` of cmark, `/repo/md_toc/constants.py` 190-193. -/
def atCmark : Re := seqs [.alt (plus spacetab) le, attributename, opt attributevaluespec]

/-- `OT` of cmark, `/repo/md_toc/constants.py` 198-201. -/
def otCmark : Re :=
  seqs [chr '<', tagname, .star atCmark, .alt (.star spacetab) (opt le), opt (chr '/'), chr '>']

/-- `CT` of cmark, `/repo/md_toc/constants.py` 203-205. -/
def ctCmark : Re := seqs [lit "</".toList, tagname, .alt (.star spacetab) (opt le), chr '>']

/-- `CO`, `/repo/md_toc/constants.py` 122-124, 208-210. -/
def co : Re :=
  seqs [lit "<!--".toList,
    plus (seqs [.nla (.alt (chr '>') (lit "->".toList)), .nla (lit "--".toList), dot]),
    .nla (chr '-'), opt dot, lit "-->".toList]

/-- `PI`, `/repo/md_toc/constants.py` 127-129, 213-215. -/
def pi : Re := seqs [lit "<?".toList, .star (.seq (.nla (lit "?>".toList)) dot), lit "?>".toList]

/-- `[A-Z]+` -/
def den : Re := plus (.cls (fun c => 65 ≤ c.toNat && c.toNat ≤ 90))

/-- `DE` of cmark, `/repo/md_toc/constants.py` 132-135, 218-220. -/
def deCmark : Re := seqs [lit "<!".toList, den, plus (.seq (.nla (chr '>')) dot), chr '>']

/-- `CD`, `/repo/md_toc/constants.py` 139-143, 223-225. -/
def cd : Re :=
  seqs [lit "<![CDATA[".toList, plus (.seq (.nla (lit "]]>".toList)) dot), lit "]]>".toList]

/-- `UAV` of github, `/repo/md_toc/constants.py` 236-237. -/
def uavGithub : Re :=
  plus (.cls (fun c => !(c == ' ' || c == '"' || c == '\'' || c == '=' || c == '<' || c == '>' || c == '`')))

/-- `WS` of github, `/repo/md_toc/constants.py` 238-239. -/
def ws : Re := .cls (fun c => c == ' ' || c == '\t' || c == '\n' || c == '\x0b' || c == '\x0c' || c == '\r')

/-- `AV` of github, `/repo/md_toc/constants.py` 243-245. -/
def avGithub : Re := alts [uavGithub, singlequotedvalue, doublequotedvalue]

/-- `AVS` of github, `/repo/md_toc/constants.py` 246-247. -/
def avsGithub : Re := seqs [.star ws, chr '=', .star ws, avGithub]

/-- `AT` of github, `/repo/md_toc/constants.py` 250-251. -/
def atGithub : Re := seqs [plus ws, attributename, opt avsGithub]

/-- A literal in any ASCII case, given in lower case. -/
def litCI : Str → Re
  | [] => .eps
  | c :: t => .seq (.cls (fun d => asciiLower d == c)) (litCI t)

/-- `GDRH`, `/repo/md_toc/constants.py` 258-259. -/
def gdrh : Re :=
  alts (["title", "textarea", "style", "xmp", "iframe", "noembed", "noframes", "script",
    "plaintext"].map (fun w => seqs [.wb, litCI w.toList, .wb]))

/-- `TN` of github, `/repo/md_toc/constants.py` 265-266. -/
def tnGithub : Re := .seq (.nla gdrh) tagname

/-- `OT` of github, `/repo/md_toc/constants.py` 271-273. -/
def otGithub : Re :=
  seqs [chr '<', tnGithub, .star atGithub, .star ws, opt (chr '/'), chr '>']

/-- `CT` of github, `/repo/md_toc/constants.py` 275-276. -/
def ctGithub : Re := seqs [lit "</".toList, tnGithub, opt ws, chr '>']

/-- `DE` of github, `/repo/md_toc/constants.py` 260-261, 278-280. -/
def deGithub : Re := seqs [lit "<!".toList, den, plus ws, plus (.seq (.nla (chr '>')) dot), chr '>']

/-- The regular expressions of `remove_html_tags`, `/repo/md_toc/api.py` 822-826.
`commonmarker` is a copy of `github`, `gitlab` and `goldmark` are copies of `cmark`,
`/repo/md_toc/constants.py` 288-291. -/
def htmlRegexes (p : Parser) : List Re :=
  if p.gfm then [otGithub, ctGithub, co, pi, deGithub, cd]
  else [otCmark, ctCmark, co, pi, deCmark, cd]

/-! ### `_scanners.re`, `/repo/md_toc/constants.py` 151-161 -/

/-- `escaped_char`, `/repo/md_toc/constants.py` 155.  The text of the expression is
``([\][!"#$%&'()*+,./:;<=>?@[\\]^_`{|}~-])``: a class, then a start-of-string assertion
and three literals, or the literal `}~-]`. -/
def escapedChar : Re :=
  .alt
    (seqs [oneOf "][!\"#$%&'()*+,./:;<=>?@[\\", .bos, chr '_', chr '`', chr '{'])
    (lit "}~-]".toList)

/-- `cdata`, `/repo/md_toc/constants.py` 156. -/
def cdata : Re :=
  .seq (lit "CDATA[".toList)
    (.star (alts [plus (.cls (fun c => !(c == ']' || c == '\x00'))),
      .seq (chr ']') (.cls (fun c => !(c == ']' || c == '\x00'))),
      seqs [chr ']', chr ']', .cls (fun c => !(c == '>' || c == '\x00'))]]))

/-- `htmltag`, `/repo/md_toc/constants.py` 157. -/
def htmltag : Re := .alt opentag closetag

/-- `htmlcomment`, `/repo/md_toc/constants.py` 158. -/
def htmlcomment : Re :=
  .alt (lit "--->".toList)
    (seqs [chr '-',
      .seq (opt (chr '-')) (.cls (fun c => !(c == '\x00' || c == '>' || c == '-'))),
      .star (.seq (opt (chr '-')) (.cls (fun c => !(c == '\x00' || c == '-')))),
      lit "-->".toList])

/-- `declaration`, `/repo/md_toc/constants.py` 159. -/
def declaration : Re :=
  seqs [den, plus spacechar, .star (.cls (fun c => !(c == '>' || c == '\x00')))]

/-- `processinginstruction`, `/repo/md_toc/constants.py` 160. -/
def processinginstruction : Re :=
  plus (alts [plus (.cls (fun c => !(c == '?' || c == '>' || c == '\x00'))),
    .seq (chr '?') (.cls (fun c => !(c == '>' || c == '\x00'))), chr '>'])

/-- `/repo/md_toc/cmark/scanners_c.py` 97-105 (`_cmark__scan_link_title`). -/
def linkTitle : Re :=
  alts [
    seqs [chr '"', .star (.alt escapedChar (.cls (fun c => !(c == '"' || c == '\x00')))), chr '"'],
    seqs [chr '\'', .star (.alt escapedChar (.cls (fun c => !(c == '\'' || c == '\x00')))), chr '\''],
    seqs [chr '(', .star (.alt escapedChar (.cls (fun c => !(c == '(' || c == ')' || c == '\x00')))), chr '\'']]

/-- `/repo/md_toc/cmark/scanners_c.py` 115-116 (`_cmark__scan_autolink_uri`). -/
def autolinkUri : Re :=
  seqs [chr ':', .star (.cls (fun c => !(c.toNat ≤ 32 || c == '<' || c == '>'))), chr '>']

/-- `[a-zA-Z0-9]` -/
def alnum : Re := .cls (fun c => isAsciiAlpha c || isAsciiDigit c)

/-- `[a-zA-Z0-9]([a-zA-Z0-9-]{0,61}[a-zA-Z0-9])?` -/
def emailLabel : Re :=
  .seq alnum (opt (.seq (upTo 61 (.cls (fun c => isAsciiAlpha c || isAsciiDigit c || c == '-'))) alnum))

/-- `/repo/md_toc/cmark/scanners_c.py` 120-123 (`_cmark__scan_autolink_email`). -/
def autolinkEmail : Re :=
  seqs [plus (.cls (fun c => isAsciiAlpha c || isAsciiDigit c || ".!#$%&'*+/=?^_`{|}~-".toList.contains c)),
    chr '@', emailLabel, .star (.seq (chr '.') emailLabel), chr '>']

end Rx

end MdToc
