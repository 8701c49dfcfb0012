"""Mutants of definitions that had none so far."""
M = [
  {'id': 'au3', 'file': 'Cfg.lean', 'definition': 'Range.cover', 'old': 'def Range.cover (a b : Range) : Range := ⟨min a.start b.start, max a.stop b.stop⟩\n\n', 'new': 'def Range.cover (a b : Range) : Range := ⟨min a.start b.start, max a.start b.stop⟩\n\n', 'edit': 'Range.cover: the end is the max of the wrong fields', 'claim': 'a block covers all its statements (C48)', 'expect': ''},
  {'id': 'au8', 'file': 'Cfg.lean', 'definition': 'afterLastColons', 'old': "def afterLastColons : Str → Option Str\n  | [] => none\n  | c :: cs =>\n    match afterLastColons cs with\n    | some r => some r\n    | none => if c = ':' then (match cs with | ':' :: rest => some rest | _ => none) else none\n\n", 'new': "def afterLastColons : Str → Option Str\n  | [] => none\n  | c :: cs =>\n    match afterLastColons cs with\n    | some r => some r\n    | none => if c = 'Z' then (match cs with | ':' :: rest => some rest | _ => none) else none\n\n", 'edit': 'a name after "::" is not the last component any more', 'claim': 'a stopping function called as pkg::stop() is recognised (C47)', 'expect': ''},
  {'id': 'au9', 'file': 'Cfg.lean', 'definition': 'buildCfg', 'old': 'def buildCfg (stop : List Str) (body : Stmt) : List Block := (buildStmt stop body true 0 .init).1.blocks\n\n', 'new': 'def buildCfg (stop : List Str) (body : Stmt) : List Block := (buildStmt stop body false 0 .init).1.blocks\n\n', 'edit': 'the body starts in a loop', 'claim': 'break outside a loop is not a jump (C47)', 'expect': ''},
  {'id': 'au13', 'file': 'Cfg.lean', 'definition': 'insertByStart', 'old': 'def insertByStart (x : Range × Reason) : List (Range × Reason) → List (Range × Reason)\n  | [] => [x]\n  | y :: ys => if x.1.start ≤ y.1.start then x :: y :: ys else y :: insertByStart x ys\n\n', 'new': 'def insertByStart (x : Range × Reason) : List (Range × Reason) → List (Range × Reason)\n  | [] => [x]\n  | y :: ys => if x.1.stop ≤ y.1.start then x :: y :: ys else y :: insertByStart x ys\n\n', 'edit': 'insert by the end instead of the start', 'claim': 'the unreachable code reports are ordered by start (C47/C48)', 'expect': ''},
  {'id': 'au14', 'file': 'Cfg.lean', 'definition': 'unreachableDiag', 'old': 'def unreachableDiag (x : Range × Reason) : Diagnostic :=\n  Diagnostic.new (cs! "unreachable_code") x.2.message none x.1 Fix.empty\n\n', 'new': 'def unreachableDiag (x : Range × Reason) : Diagnostic :=\n  Diagnostic.new (cs! "xunreachable_code") x.2.message none x.1 Fix.empty\n\n', 'edit': 'wrong rule name', 'claim': 'unreachable code is reported under unreachable_code', 'expect': ''},
  {'id': 'au15', 'file': 'Cfg.lean', 'definition': 'defaultStopping', 'old': 'def defaultStopping : List Str :=\n  [cs! "stop", cs! ".Defunct", cs! "abort", cs! "cli_abort", cs! "q", cs! "quit"]\n\n', 'new': 'def defaultStopping : List Str :=\n  [cs! "stop", cs! ".Defunct", cs! "abort", cs! "xcli_abort", cs! "q", cs! "quit"]\n\n', 'edit': 'cli_abort misspelled', 'claim': 'code after cli_abort() is unreachable (C47)', 'expect': ''},
  {'id': 'au17', 'file': 'Check.lean', 'definition': 'pkgDiags', 'old': 'def pkgDiags (r : Rule) (tail : Str) (l : List (Str × Range × Str)) : List Diagnostic :=\n  l.map (fun (name, range, help) =>\n    Diagnostic.new r.name (cs! "`" ++ name ++ cs! "` " ++ tail) (some help) range .empty)\n\n', 'new': 'def pkgDiags (r : Rule) (tail : Str) (l : List (Str × Range × Str)) : List Diagnostic :=\n  l.map (fun (name, range, help) =>\n    Diagnostic.new r.name (cs! "x`" ++ name ++ cs! "` " ++ tail) (some help) range .empty)\n\n', 'edit': 'message starts with another character', 'claim': 'reports of duplicated/unused functions name the function', 'expect': ''},
  {'id': 'au18', 'file': 'Check.lean', 'definition': 'outdatedDiags', 'old': 'def outdatedDiags (ranges : List Range) : List Diagnostic :=\n  commentDiags .outdatedSuppression\n    (cs! "This suppression comment is unused, no violation would be reported without it.")\n    (cs! "Remove this suppression comment or verify that it\'s still needed.") ranges\n\n', 'new': 'def outdatedDiags (ranges : List Range) : List Diagnostic :=\n  commentDiags .outdatedSuppression\n    (cs! "This suppression comment is unused, no violation would be reported without it.")\n    (cs! "xRemove this suppression comment or verify that it\'s still needed.") ranges\n\n', 'edit': 'help text changed', 'claim': 'the report says what to do', 'expect': ''},
  {'id': 'au25', 'file': 'Check.lean', 'definition': 'hasRExtension', 'old': 'def hasRExtension (path : Str) : Bool :=\n  match extension path with\n  | some e => e = cs! "r" || e = cs! "R"\n  | none => false\n\n', 'new': 'def hasRExtension (path : Str) : Bool :=\n  match extension path with\n  | some e => e = cs! "xr" || e = cs! "R"\n  | none => false\n\n', 'edit': 'extension r not accepted', 'claim': 'a file with the extension r is an R file', 'expect': ''},
  {'id': 'au26', 'file': 'Cli.lean', 'definition': 'natCmp', 'old': 'def natCmp (a b : Nat) : Ordering := if a < b then .lt else if a = b then .eq else .gt\n\n', 'new': 'def natCmp (a b : Nat) : Ordering := if a ≤ b then .lt else if a = b then .eq else .gt\n\n', 'edit': 'natCmp: equal numbers are .lt', 'claim': 'the diagnostics are totally ordered', 'expect': ''},
  {'id': 'au28', 'file': 'Cli.lean', 'definition': 'diagLe', 'old': 'def diagLe (a b : Diagnostic) : Bool := diagCmp a b != .gt\n\n/-! ## Collecting the results -/\n\n', 'new': 'def diagLe (a b : Diagnostic) : Bool := diagCmp a b == .gt\n\n/-! ## Collecting the results -/\n\n', 'edit': 'diagLe inverted', 'claim': 'diagnostics are printed in order', 'expect': ''},
  {'id': 'au33', 'file': 'Cli.lean', 'definition': 'reasonOk', 'old': "def reasonOk (reason : Str) : Bool := !(reason.any (fun c => c = '\\n' || c = '\\r'))\n\n", 'new': "def reasonOk (reason : Str) : Bool := !(reason.any (fun c => c = '\\n' && c = '\\r'))\n\n", 'edit': 'a reason with a line feed is accepted', 'claim': '--add-jarl-ignore refuses a reason with a line break', 'expect': ''},
  {'id': 'au40', 'file': 'Description.lean', 'definition': 'dropGe', 'old': "def dropGe : Str → Str\n  | [] => []\n  | '>' :: '=' :: cs => dropGe cs\n  | c :: cs => c :: dropGe cs\n\n", 'new': "def dropGe : Str → Str\n  | [] => []\n  | '>' :: 'Z' :: cs => dropGe cs\n  | c :: cs => c :: dropGe cs\n\n", 'edit': 'dropGe keeps >=', 'claim': 'the R version is read after >=', 'expect': ''},
  {'id': 'au42', 'file': 'Diagnostic.lean', 'definition': 'Range.contains', 'old': 'def Range.contains (a b : Range) : Bool := a.start ≤ b.start && b.stop ≤ a.stop\n\n', 'new': 'def Range.contains (a b : Range) : Bool := a.start ≤ b.start && b.stop ≤ a.start\n\n', 'edit': 'contains compares the wrong ends', 'claim': 'nested fixes are told from overlapping ones', 'expect': ''},
  {'id': 'au45', 'file': 'Diagnostic.lean', 'definition': 'Diagnostic.hasUnsafeFix', 'old': 'def Diagnostic.hasUnsafeFix (d : Diagnostic) : Bool :=\n  if d.fix.toSkip || d.fix.content.isEmpty then false\n  else match Rule.fromName d.name with\n    | some r => decide (r.fixStatus = .unsafe_)\n    | none => false\n\n', 'new': 'def Diagnostic.hasUnsafeFix (d : Diagnostic) : Bool :=\n  if d.fix.toSkip && d.fix.content.isEmpty then false\n  else match Rule.fromName d.name with\n    | some r => decide (r.fixStatus = .unsafe_)\n    | none => false\n\n', 'edit': '|| becomes &&', 'claim': 'an unsafe fix that is to be skipped is no unsafe fix', 'expect': ''},
  {'id': 'au46', 'file': 'Diagnostic.lean', 'definition': 'Diagnostic.hasNoFix', 'old': 'def Diagnostic.hasNoFix (d : Diagnostic) : Bool :=\n  if d.fix.toSkip then true\n  else match Rule.fromName d.name with\n    | some r => decide (r.fixStatus = .none)\n    | none => true\n\n', 'new': 'def Diagnostic.hasNoFix (d : Diagnostic) : Bool :=\n  if d.fix.toSkip then true\n  else match Rule.fromName d.name with\n    | some r => decide (r.fixStatus = .none)\n    | none => false\n\n', 'edit': 'a diagnostic without fix status', 'claim': 'a report without a fix counts as no fix', 'expect': ''},
  {'id': 'au53', 'file': 'Fix.lean', 'definition': 'Fix.empty', 'old': 'def Fix.empty : Fix := ⟨[], 0, 0, true⟩\n\n', 'new': 'def Fix.empty : Fix := ⟨[], 0, 0, false⟩\n\n', 'edit': 'Fix.empty is not to be skipped', 'claim': 'a report without fix has no fix', 'expect': ''},
  {'id': 'au57', 'file': 'Json.lean', 'definition': 'Json.pretty', 'old': 'def Json.pretty (level : Nat) : Json → Str\n  | .null => cs! "null"\n  | .bool b => if b then cs! "true" else cs! "false"\n  | .num n => digits n\n  | .str s => jsonStr s\n  | .arr [] => cs! "[]"\n  | .arr (x :: xs) =>\n    [\'[\'] ++ jsonLine (level + 1) ++ x.pretty (level + 1) ++ prettyElems (level + 1) xs ++ jsonLine level ++ [\']\']\n  | .obj [] => cs! "{}"\n  | .obj ((k, x) :: xs) =>\n    [\'{\'] ++ jsonLine (level + 1) ++ jsonStr k ++ cs! ": " ++ x.pretty (level + 1) ++ prettyFields (level + 1) xs ++\n      jsonLine level ++ [\'}\']\n\n', 'new': 'def Json.pretty (level : Nat) : Json → Str\n  | .null => cs! "null"\n  | .bool b => if b then cs! "true" else cs! "false"\n  | .num n => digits n\n  | .str s => jsonStr s\n  | .arr [] => cs! "[]"\n  | .arr (x :: xs) =>\n    [\'[\'] ++ jsonLine (level + 1) ++ x.pretty (level + 1) ++ prettyElems (level) xs ++ jsonLine level ++ [\']\']\n  | .obj [] => cs! "{}"\n  | .obj ((k, x) :: xs) =>\n    [\'{\'] ++ jsonLine (level + 1) ++ jsonStr k ++ cs! ": " ++ x.pretty (level + 1) ++ prettyFields (level + 1) xs ++\n      jsonLine level ++ [\'}\']\n\n', 'edit': 'indentation of the elements', 'claim': 'pretty JSON is indented by the level', 'expect': ''},
  {'id': 'au61', 'file': 'Lsp.lean', 'definition': 'TextDoc.lineRange', 'old': 'def TextDoc.lineRange (d : TextDoc) (line : Nat) : Option (Nat × Nat) :=\n  match d.lineStarts[line]? with\n  | none => none\n  | some a =>\n    if line + 1 < d.lineStarts.length then\n      match d.lineStarts[line + 1]? with\n      | none => none\n      | some b => if b = 0 then none else some (a, b - 1)\n    else some (a, blen d.content)\n\n', 'new': 'def TextDoc.lineRange (d : TextDoc) (line : Nat) : Option (Nat × Nat) :=\n  match d.lineStarts[line]? with\n  | none => none\n  | some a =>\n    if line + 1 ≤ d.lineStarts.length then\n      match d.lineStarts[line + 1]? with\n      | none => none\n      | some b => if b = 0 then none else some (a, b - 1)\n    else some (a, blen d.content)\n\n', 'edit': '< becomes <=', 'claim': 'the line range of the last line ends with the document', 'expect': ''},
  {'id': 'au63', 'file': 'Lsp.lean', 'definition': 'binarySearch', 'old': 'def binarySearch (xs : List Nat) (x : Nat) : Nat ⊕ Nat :=\n  match xs.findIdx? (· == x) with\n  | some i => .inl i\n  | none => .inr (xs.countP (· < x))\n\n', 'new': 'def binarySearch (xs : List Nat) (x : Nat) : Nat ⊕ Nat :=\n  match xs.findIdx? (· == x) with\n  | some i => .inl i\n  | none => .inr (xs.countP (· ≤ x))\n\n', 'edit': '< becomes <=', 'claim': 'the insertion point of an offset in the line starts', 'expect': ''},
  {'id': 'au66', 'file': 'Lsp.lean', 'definition': 'columnOnLine', 'old': "def columnOnLine (fromLineStart : Str) (byteOff : Nat) (enc : Enc) : LspRes Nat :=\n  columnInLine (fromLineStart.takeWhile (· ≠ '\\n')) byteOff enc\n\n", 'new': "def columnOnLine (fromLineStart : Str) (byteOff : Nat) (enc : Enc) : LspRes Nat :=\n  columnInLine (fromLineStart.takeWhile (· = '\\n')) byteOff enc\n\n", 'edit': 'takeWhile inverted', 'claim': 'the column of an offset', 'expect': ''},
  {'id': 'au68', 'file': 'LspActions.lean', 'definition': 'parseExistingSuppression', 'old': 'def parseExistingSuppression (line : Str) : Option (Option (List Str)) :=\n  match stripPrefix (cs! "# jarl-ignore") (trim line) with\n  | none => none\n  | some after =>\n    let after := trimStart after\n    if after = [] then some none\n    else match splitFirst \':\' after with\n      | none => none\n      | some (rules, _) =>\n        let rs := ((splitOn \',\' rules).map trim).filter (fun s => s ≠ [])\n        if rs = [] then none else some (some rs)\n\n', 'new': 'def parseExistingSuppression (line : Str) : Option (Option (List Str)) :=\n  match stripPrefix (cs! "x# jarl-ignore") (trim line) with\n  | none => none\n  | some after =>\n    let after := trimStart after\n    if after = [] then some none\n    else match splitFirst \':\' after with\n      | none => none\n      | some (rules, _) =>\n        let rs := ((splitOn \',\' rules).map trim).filter (fun s => s ≠ [])\n        if rs = [] then none else some (some rs)\n\n', 'edit': 'prefix changed', 'claim': 'an existing suppression comment is extended', 'expect': ''},
  {'id': 'au70', 'file': 'LspExclude.lean', 'definition': 'endsWith', 'old': 'def endsWith (suf s : Str) : Bool := startsWith suf.reverse s.reverse\n\n', 'new': 'def endsWith (suf s : Str) : Bool := startsWith suf s.reverse\n\n', 'edit': 'suffix not reversed', 'claim': 'a pattern *.R excludes files ending in .R', 'expect': ''},
  {'id': 'au72', 'file': 'LspExclude.lean', 'definition': 'lastComponent', 'old': "def lastComponent (np : Str) : Str := (splitOn '/' np).getLast?.getD np\n\n", 'new': "def lastComponent (np : Str) : Str := (splitOn '/' np).head?.getD np\n\n", 'edit': 'first component', 'claim': 'a pattern matches the last component', 'expect': ''},
  {'id': 'au73', 'file': 'LspExclude.lean', 'definition': 'defaultExcludePatterns', 'old': 'def defaultExcludePatterns : List Str :=\n  [cs! ".git/", cs! "renv/", cs! "revdep/", cs! "cpp11.R", cs! "RcppExports.R", cs! "extendr-wrappers.R",\n   cs! "import-standalone-*.R"]\n\n', 'new': 'def defaultExcludePatterns : List Str :=\n  [cs! ".git/", cs! "renv/", cs! "revdep/", cs! "cpp11.R", cs! "xRcppExports.R", cs! "extendr-wrappers.R",\n   cs! "import-standalone-*.R"]\n\n', 'edit': 'RcppExports.R misspelled', 'claim': 'RcppExports.R is excluded by default', 'expect': ''},
  {'id': 'au74', 'file': 'LspExclude.lean', 'definition': 'shouldExcludeFile', 'old': 'def shouldExcludeFile (path : Str) (patterns : List Str) : Bool := patterns.any (matchesPattern path)\n\n', 'new': 'def shouldExcludeFile (path : Str) (patterns : List Str) : Bool := patterns.all (matchesPattern path)\n\n', 'edit': 'any becomes all', 'claim': 'a file is excluded when some pattern matches', 'expect': ''},
  {'id': 'au76', 'file': 'LspNotice.lean', 'definition': 'NoticeState.init', 'old': 'def NoticeState.init (n : Nat) : NoticeState := ⟨fun _ => none, [], [], n, [], false, false, false⟩\n\n', 'new': 'def NoticeState.init (n : Nat) : NoticeState := ⟨fun _ => none, [], [], n, [], false, true, false⟩\n\n', 'edit': 'initial state has shut down', 'claim': 'a server starts not shut down', 'expect': ''},
  {'id': 'au83', 'file': 'Output.lean', 'definition': 'hyperlink', 'old': 'def hyperlink (text : Str) : Str :=\n  esc :: cs! "]8;;https://jarl.etiennebacher.com/rules/" ++ text ++ esc :: cs! "\\\\" ++ text ++ esc :: cs! "]8;;" ++\n    esc :: cs! "\\\\"\n\n', 'new': 'def hyperlink (text : Str) : Str :=\n  esc :: cs! "]8;;https://jarl.etiennebacher.com/rules/" ++ text ++ esc :: cs! "\\\\" ++ text ++ esc :: cs! "x]8;;" ++\n    esc :: cs! "\\\\"\n\n', 'edit': 'hyperlink text', 'claim': 'stripping the colours gives the plain text', 'expect': ''},
  {'id': 'au85', 'file': 'Output.lean', 'definition': 'errChain', 'old': 'def errChain (env : OutEnv) (path : Str) : CheckErr → List Str\n  | .read => [cs! "Failed to read file: " ++ path, env.detail path .read]\n  | .write => [cs! "Failed to write file: " ++ path, env.detail path .write]\n  | .parse => [cs! "Failed to get checks for file: " ++ path, cs! "Failed to parse " ++ path ++ cs! " due to syntax errors."]\n  | .lint => [cs! "Failed to get checks for file: " ++ path, env.detail path .lint]\n  | .vcs => [env.detail path .vcs]\n  | .panic => [env.detail path .panic]\n\n', 'new': 'def errChain (env : OutEnv) (path : Str) : CheckErr → List Str\n  | .read => [cs! "Failed to read file: " ++ path, env.detail path .read]\n  | .write => [cs! "Failed to write file: " ++ path, env.detail path .write]\n  | .parse => [cs! "Failed to get checks for file: " ++ path, cs! "xFailed to parse " ++ path ++ cs! " due to syntax errors."]\n  | .lint => [cs! "Failed to get checks for file: " ++ path, env.detail path .lint]\n  | .vcs => [env.detail path .vcs]\n  | .panic => [env.detail path .panic]\n\n', 'edit': 'text of a parse error', 'claim': 'a parse error is reported with its path', 'expect': ''},
  {'id': 'au109', 'file': 'RReports.lean', 'definition': 'isWhileCondition', 'old': 'def isWhileCondition : List Frame → Bool\n  | .whileC .. :: _ => true\n  | _ => false\n\n', 'new': 'def isWhileCondition : List Frame → Bool\n  | .whileC .. :: _ => true\n  | _ => true\n\n', 'edit': '_ => true', 'claim': 'browser in while condition', 'expect': ''},
  {'id': 'au111', 'file': 'RReports.lean', 'definition': 'Frame.isIf', 'old': 'def Frame.isIf : Frame → Bool\n  | .ifC .. | .ifT .. | .ieC .. | .ieT .. | .ieE .. => true\n  | _ => false\n\n', 'new': 'def Frame.isIf : Frame → Bool\n  | .ifC .. | .ifT .. | .ieC .. | .ieT .. | .ieE .. => true\n  | _ => true\n\n', 'edit': '_ => true', 'claim': 'an if frame', 'expect': ''},
  {'id': 'au114', 'file': 'RReports.lean', 'definition': 'isWhileBody', 'old': 'def isWhileBody : List Frame → Bool\n  | .whileB .. :: _ => true\n  | _ => false\n\n', 'new': 'def isWhileBody : List Frame → Bool\n  | .whileB .. :: _ => false\n  | _ => false\n\n', 'edit': 'while body not recognised', 'claim': 'next in a while body', 'expect': ''},
  {'id': 'au115', 'file': 'RReports.lean', 'definition': 'isForBody', 'old': 'def isForBody : List Frame → Bool\n  | .forB .. :: _ => true\n  | _ => false\n\n', 'new': 'def isForBody : List Frame → Bool\n  | .forB .. :: _ => true\n  | _ => true\n\n', 'edit': '_ => true', 'claim': 'a for body', 'expect': ''},
  {'id': 'au118', 'file': 'RReports.lean', 'definition': 'digitsVal', 'old': 'def digitsVal : Str → Nat → Option Nat\n  | [], n => some n\n  | c :: cs, n => if c.isDigit then digitsVal cs (10 * n + (c.toNat - 48)) else none\n\n', 'new': 'def digitsVal : Str → Nat → Option Nat\n  | [], n => some n\n  | c :: cs, n => if c.isDigit then digitsVal cs (10 * n - (c.toNat - 48)) else none\n\n', 'edit': '10*n - digit', 'claim': 'the value of a numeral', 'expect': ''},
  {'id': 'au138', 'file': 'RRules.lean', 'definition': 'whichGrepl', 'old': 'def whichGrepl (z : Zip) : Option Edit := do\n  let (c, t) ← nested z (cs! "which") (cs! "grepl")\n  some (fixAt t (callText (cs! "grep") c))\n\n', 'new': 'def whichGrepl (z : Zip) : Option Edit := do\n  let (c, t) ← nested z (cs! "which") (cs! "xgrepl")\n  some (fixAt t (callText (cs! "grep") c))\n\n', 'edit': 'xgrepl', 'claim': 'which(grepl(p, x)) is reported', 'expect': ''},
  {'id': 'au139', 'file': 'RRules.lean', 'definition': 'equalsNan', 'old': 'def equalsNan (z : Zip) : Option Edit := equalsSpecial (isAtom .nan) (cs! "is.nan") false z\n\n', 'new': 'def equalsNan (z : Zip) : Option Edit := equalsSpecial (isAtom .nan) (cs! "is.nan") true z\n\n', 'edit': 'negated', 'claim': 'x == NaN is is.nan(x)', 'expect': ''},
  {'id': 'au141', 'file': 'RRules.lean', 'definition': 'isNcharOf', 'old': 'def isNcharOf (x e : Node) : Bool :=\n  match asCall e with\n  | some (f, args) => fnName f = cs! "nchar" && (match items args with\n    | [a] => (match argValue a with | some v => sameText v x | none => false)\n    | _ => false)\n  | none => false\n\n', 'new': 'def isNcharOf (x e : Node) : Bool :=\n  match asCall e with\n  | some (f, args) => fnName f = cs! "xnchar" && (match items args with\n    | [a] => (match argValue a with | some v => sameText v x | none => false)\n    | _ => false)\n  | none => false\n\n', 'edit': 'xnchar', 'claim': 'nchar(x) == 0 ...', 'expect': ''},
  {'id': 'au143', 'file': 'RRules.lean', 'definition': 'afterPipe', 'old': 'def afterPipe : List Frame → Bool\n  | .binR _ _ .pipe :: _ => true\n  | _ => false\n\n', 'new': 'def afterPipe : List Frame → Bool\n  | .binR _ _ .pipe :: _ => false\n  | _ => false\n\n', 'edit': 'after a pipe not recognised', 'claim': 'no fix after a pipe', 'expect': ''},
  {'id': 'au160', 'file': 'Rules.lean', 'definition': 'Rule.enabledByDefault', 'old': 'def Rule.enabledByDefault : Rule → Bool\n  | .assignment => false\n  | .expectLength => false\n  | .expectMatch => false\n  | .expectNamed => false\n  | .expectNoMatch => false\n  | .expectNot => false\n  | .expectNull => false\n  | .expectS3Class => false\n  | .expectTrueFalse => false\n  | .expectType => false\n  | .fixedRegex => false\n  | .sampleInt => false\n  | .unnecessaryNesting => false\n  | .unusedFunction => false\n  | _ => true\n\n', 'new': 'def Rule.enabledByDefault : Rule → Bool\n  | .assignment => false\n  | .expectLength => false\n  | .expectMatch => false\n  | .expectNamed => true\n  | .expectNoMatch => false\n  | .expectNot => false\n  | .expectNull => false\n  | .expectS3Class => false\n  | .expectTrueFalse => false\n  | .expectType => false\n  | .fixedRegex => false\n  | .sampleInt => false\n  | .unnecessaryNesting => false\n  | .unusedFunction => false\n  | _ => true\n\n', 'edit': 'expect_named off by default becomes on', 'claim': 'the default rules', 'expect': ''},
  {'id': 'au168', 'file': 'Run.lean', 'definition': 'scopeDir', 'old': 'def scopeDir : List Str → Str\n  | [] => cs! "tests/"\n  | c :: cs =>\n    if c = cs! "tests" then cs! "tests/"\n    else if c = cs! "inst" then\n      (match cs with\n       | n :: _ => if n = cs! "tinytest" || n = cs! "tests" then cs! "inst/" ++ n ++ cs! "/" else scopeDir cs\n       | [] => scopeDir cs)\n    else scopeDir cs\n\n', 'new': 'def scopeDir : List Str → Str\n  | [] => cs! "tests/"\n  | c :: cs =>\n    if c = cs! "tests" then cs! "tests/"\n    else if c = cs! "inst" then\n      (match cs with\n       | n :: _ => if n = cs! "tinytest" && n = cs! "tests" then cs! "inst/" ++ n ++ cs! "/" else scopeDir cs\n       | [] => scopeDir cs)\n    else scopeDir cs\n\n', 'edit': '|| becomes &&', 'claim': 'inst/tinytest is a scope of its own', 'expect': ''},
  {'id': 'au169', 'file': 'Run.lean', 'definition': 'unusedHelp', 'old': 'def unusedHelp (w : FileWorld) (p : DPath) (r : UnusedReport) : Str :=\n  let path := relText w.cwd p\n  cs! "Defined at " ++ path ++ cs! ":" ++ digits r.line ++ cs! ":1 but never called" ++\n    (if inPackageR w.pkgFs p then [] else cs! " in " ++ scopeDir (splitOn \'/\' path))\n\n', 'new': 'def unusedHelp (w : FileWorld) (p : DPath) (r : UnusedReport) : Str :=\n  let path := relText w.cwd p\n  cs! "Defined at " ++ path ++ cs! ":" ++ digits r.line ++ cs! "x:1 but never called" ++\n    (if inPackageR w.pkgFs p then [] else cs! " in " ++ scopeDir (splitOn \'/\' path))\n\n', 'edit': 'help text', 'claim': 'the help of an unused function', 'expect': ''},
  {'id': 'au170', 'file': 'Sprintf.lean', 'definition': 'Fmt.add', 'old': "def Fmt.add (m : Fmt) : FmtItem → Fmt\n  | .percent => { m with out := m.out ++ ['%'] }\n  | .bad => { m with invalid := m.invalid + 1 }\n  | .conv p n => { m with convs := m.convs + 1, args := m.args ++ [n], positional := m.positional || p.isSome, maxPos := max m.maxPos (p.getD 0) }\n\n", 'new': "def Fmt.add (m : Fmt) : FmtItem → Fmt\n  | .percent => { m with out := m.out ++ ['%'] }\n  | .bad => { m with invalid := m.invalid }\n  | .conv p n => { m with convs := m.convs + 1, args := m.args ++ [n], positional := m.positional || p.isSome, maxPos := max m.maxPos (p.getD 0) }\n\n", 'edit': 'an invalid specification is not counted', 'claim': 'sprintf with an invalid format', 'expect': ''},
  {'id': 'au173', 'file': 'Suppression.lean', 'definition': 'visitNode', 'old': 'def visitNode (source : Str) (first : Bool) (level : Nat) : SynNode → List Visit\n  | .mk range _ leading trailing dangling children =>\n    leadingVisits range first level none leading ++\n    trailing.map (fun c => .comment c range false (isSameLineAsCode c.range source) level) ++\n    dangling.map (fun c => .comment c range false false level) ++\n    visitChildren source first level children\n', 'new': 'def visitNode (source : Str) (first : Bool) (level : Nat) : SynNode → List Visit\n  | .mk range _ leading trailing dangling children =>\n    leadingVisits range first level none leading ++\n    trailing.map (fun c => .comment c range false (isSameLineAsCode c.range source) level) ++\n    dangling.map (fun c => .comment c range true false level) ++\n    visitChildren source first level children\n', 'edit': 'dangling comment flag', 'claim': 'dangling comments', 'expect': ''},
  {'id': 'au177', 'file': 'Suppression.lean', 'definition': 'Collector.finish', 'old': 'def Collector.finish (c : Collector) : Manager :=\n  { regions := c.regions, file := c.file, chunk := c.chunk, node := c.node,\n    hasAny := !c.regions.isEmpty || !c.file.isEmpty || !c.chunk.isEmpty || c.hasValid,\n    blanket := c.blanket, invalidChunk := c.invalidChunk, unmatchedStart := c.starts.map (·.2),\n    unmatchedEnd := c.unmatchedEnd, unexplained := c.unexplained, misplacedFile := c.misplacedFile,\n    misplaced := c.misplaced, misnamed := c.misnamed }\n\n', 'new': 'def Collector.finish (c : Collector) : Manager :=\n  { regions := c.regions, file := c.file, chunk := c.chunk, node := c.node,\n    hasAny := c.regions.isEmpty || !c.file.isEmpty || !c.chunk.isEmpty || c.hasValid,\n    blanket := c.blanket, invalidChunk := c.invalidChunk, unmatchedStart := c.starts.map (·.2),\n    unmatchedEnd := c.unmatchedEnd, unexplained := c.unexplained, misplacedFile := c.misplacedFile,\n    misplaced := c.misplaced, misnamed := c.misnamed }\n\n', 'edit': 'hasAny', 'claim': 'without suppression nothing is filtered', 'expect': ''},
  {'id': 'au178', 'file': 'Suppression.lean', 'definition': 'collect', 'old': 'def collect (root : SynNode) (source : Str) : Option Manager :=\n  (runVisits {} (visitNode source true 0 root)).map Collector.finish\n\n', 'new': 'def collect (root : SynNode) (source : Str) : Option Manager :=\n  (runVisits {} (visitNode source false 0 root)).map Collector.finish\n\n', 'edit': 'the root is not the top level', 'claim': 'comments at top level', 'expect': ''},
  {'id': 'au179', 'file': 'Suppression.lean', 'definition': 'filterDiagnostics', 'old': 'def filterDiagnostics (m : Manager) (ds : List Diagnostic) : List Diagnostic × List Range :=\n  if !m.hasAny then (ds, []) else filterLoop m ds []\n\n', 'new': 'def filterDiagnostics (m : Manager) (ds : List Diagnostic) : List Diagnostic × List Range :=\n  if m.hasAny then (ds, []) else filterLoop m ds []\n\n', 'edit': 'negation dropped', 'claim': 'filtering happens when some suppression exists', 'expect': ''},
  {'id': 'au199', 'file': 'Walk.lean', 'definition': 'WalkGlob.hits', 'old': 'def WalkGlob.hits (g : WalkGlob) (rel : List Str) (isDir : Bool) : Bool := (!g.onlyDir || isDir) && pathMatch g.segs rel\n\n', 'new': 'def WalkGlob.hits (g : WalkGlob) (rel : List Str) (isDir : Bool) : Bool := (!g.onlyDir && isDir) && pathMatch g.segs rel\n\n', 'edit': '|| becomes &&', 'claim': 'a directory pattern applies to directories only', 'expect': ''},
  {'id': 'au202', 'file': 'Walk.lean', 'definition': 'fileNameOf', 'old': 'def fileNameOf (p : DPath) : Str := p.getLast?.getD []\n\n', 'new': 'def fileNameOf (p : DPath) : Str := p.head?.getD []\n\n', 'edit': 'first component', 'claim': 'the file name is the last component', 'expect': ''},
  {'id': 'au203', 'file': 'Walk.lean', 'definition': 'discoverRFiles', 'old': 'def discoverRFiles (tree : FsTree) (git : DPath → Bool → GitMatch) (items : List (DPath × ExcludeSettings))\n    (first : Option (DPath × ExcludeSettings)) (noDefaultExclude : Bool) (args : List DPath) : List (Option DPath) :=\n  (args.flatMap (visitArg (skipEntry git first noDefaultExclude) tree)).filter\n    (fun r => match r with | none => true | some f => keepFile items f)\n\n', 'new': 'def discoverRFiles (tree : FsTree) (git : DPath → Bool → GitMatch) (items : List (DPath × ExcludeSettings))\n    (first : Option (DPath × ExcludeSettings)) (noDefaultExclude : Bool) (args : List DPath) : List (Option DPath) :=\n  (args.flatMap (visitArg (skipEntry git first noDefaultExclude) tree)).filter\n    (fun r => match r with | none => false | some f => keepFile items f)\n\n', 'edit': 'none dropped', 'claim': 'errors of the walk stay', 'expect': ''},
]
