import Verif.Py.Ast
/-
The names of the classes and fields of `ast`, and the fields of each class (`_fields`), as in the grammar of Python 3.12.
-/
namespace Mcpyrate.Py

def K.text : K → String
  | .Module => "Module"
  | .Interactive => "Interactive"
  | .Expression => "Expression"
  | .FunctionType => "FunctionType"
  | .FunctionDef => "FunctionDef"
  | .AsyncFunctionDef => "AsyncFunctionDef"
  | .ClassDef => "ClassDef"
  | .Return => "Return"
  | .Delete => "Delete"
  | .Assign => "Assign"
  | .TypeAlias => "TypeAlias"
  | .AugAssign => "AugAssign"
  | .AnnAssign => "AnnAssign"
  | .For => "For"
  | .AsyncFor => "AsyncFor"
  | .While => "While"
  | .If => "If"
  | .With => "With"
  | .AsyncWith => "AsyncWith"
  | .Match => "Match"
  | .Raise => "Raise"
  | .Try => "Try"
  | .TryStar => "TryStar"
  | .Assert => "Assert"
  | .Import => "Import"
  | .ImportFrom => "ImportFrom"
  | .Global => "Global"
  | .Nonlocal => "Nonlocal"
  | .Expr => "Expr"
  | .Pass => "Pass"
  | .Break => "Break"
  | .Continue => "Continue"
  | .BoolOp => "BoolOp"
  | .NamedExpr => "NamedExpr"
  | .BinOp => "BinOp"
  | .UnaryOp => "UnaryOp"
  | .Lambda => "Lambda"
  | .IfExp => "IfExp"
  | .Dict => "Dict"
  | .Set => "Set"
  | .ListComp => "ListComp"
  | .SetComp => "SetComp"
  | .DictComp => "DictComp"
  | .GeneratorExp => "GeneratorExp"
  | .Await => "Await"
  | .Yield => "Yield"
  | .YieldFrom => "YieldFrom"
  | .Compare => "Compare"
  | .Call => "Call"
  | .FormattedValue => "FormattedValue"
  | .JoinedStr => "JoinedStr"
  | .Constant => "Constant"
  | .Attribute => "Attribute"
  | .Subscript => "Subscript"
  | .Starred => "Starred"
  | .Name => "Name"
  | .List => "List"
  | .Tuple => "Tuple"
  | .Slice => "Slice"
  | .Load => "Load"
  | .Store => "Store"
  | .Del => "Del"
  | .And => "And"
  | .Or => "Or"
  | .Add => "Add"
  | .Sub => "Sub"
  | .Mult => "Mult"
  | .MatMult => "MatMult"
  | .Div => "Div"
  | .Mod => "Mod"
  | .Pow => "Pow"
  | .LShift => "LShift"
  | .RShift => "RShift"
  | .BitOr => "BitOr"
  | .BitXor => "BitXor"
  | .BitAnd => "BitAnd"
  | .FloorDiv => "FloorDiv"
  | .Invert => "Invert"
  | .Not => "Not"
  | .UAdd => "UAdd"
  | .USub => "USub"
  | .Eq => "Eq"
  | .NotEq => "NotEq"
  | .Lt => "Lt"
  | .LtE => "LtE"
  | .Gt => "Gt"
  | .GtE => "GtE"
  | .Is => "Is"
  | .IsNot => "IsNot"
  | .In => "In"
  | .NotIn => "NotIn"
  | .comprehension => "comprehension"
  | .ExceptHandler => "ExceptHandler"
  | .arguments => "arguments"
  | .arg => "arg"
  | .keyword => "keyword"
  | .alias => "alias"
  | .withitem => "withitem"
  | .match_case => "match_case"
  | .MatchValue => "MatchValue"
  | .MatchSingleton => "MatchSingleton"
  | .MatchSequence => "MatchSequence"
  | .MatchMapping => "MatchMapping"
  | .MatchClass => "MatchClass"
  | .MatchStar => "MatchStar"
  | .MatchAs => "MatchAs"
  | .MatchOr => "MatchOr"
  | .TypeIgnore => "TypeIgnore"
  | .TypeVar => "TypeVar"
  | .ParamSpec => "ParamSpec"
  | .TypeVarTuple => "TypeVarTuple"

def K.all : _root_.List K :=
  [.Module, .Interactive, .Expression, .FunctionType, .FunctionDef, .AsyncFunctionDef, .ClassDef, .Return, .Delete,
    .Assign, .TypeAlias, .AugAssign, .AnnAssign, .For, .AsyncFor, .While, .If, .With, .AsyncWith, .Match, .Raise,
    .Try, .TryStar, .Assert, .Import, .ImportFrom, .Global, .Nonlocal, .Expr, .Pass, .Break, .Continue, .BoolOp,
    .NamedExpr, .BinOp, .UnaryOp, .Lambda, .IfExp, .Dict, .Set, .ListComp, .SetComp, .DictComp, .GeneratorExp,
    .Await, .Yield, .YieldFrom, .Compare, .Call, .FormattedValue, .JoinedStr, .Constant, .Attribute, .Subscript,
    .Starred, .Name, .List, .Tuple, .Slice, .Load, .Store, .Del, .And, .Or, .Add, .Sub, .Mult, .MatMult, .Div,
    .Mod, .Pow, .LShift, .RShift, .BitOr, .BitXor, .BitAnd, .FloorDiv, .Invert, .Not, .UAdd, .USub, .Eq, .NotEq,
    .Lt, .LtE, .Gt, .GtE, .Is, .IsNot, .In, .NotIn, .comprehension, .ExceptHandler, .arguments, .arg, .keyword,
    .alias, .withitem, .match_case, .MatchValue, .MatchSingleton, .MatchSequence, .MatchMapping, .MatchClass,
    .MatchStar, .MatchAs, .MatchOr, .TypeIgnore, .TypeVar, .ParamSpec, .TypeVarTuple]

/-- The class of `ast` with this name. -/
def K.ofText (s : String) : Option K := K.all.find? fun k => k.text == s

def F.text : F → String
  | .body => "body"
  | .type_ignores => "type_ignores"
  | .name => "name"
  | .args => "args"
  | .decorator_list => "decorator_list"
  | .returns => "returns"
  | .type_comment => "type_comment"
  | .type_params => "type_params"
  | .bases => "bases"
  | .keywords => "keywords"
  | .value => "value"
  | .targets => "targets"
  | .target => "target"
  | .op => "op"
  | .annotation => "annotation"
  | .simple => "simple"
  | .iter => "iter"
  | .orelse => "orelse"
  | .test => "test"
  | .items => "items"
  | .subject => "subject"
  | .cases => "cases"
  | .exc => "exc"
  | .cause => "cause"
  | .handlers => "handlers"
  | .finalbody => "finalbody"
  | .msg => "msg"
  | .names => "names"
  | .module_ => "module"
  | .level => "level"
  | .values => "values"
  | .left => "left"
  | .right => "right"
  | .operand => "operand"
  | .keys => "keys"
  | .elt => "elt"
  | .generators => "generators"
  | .key => "key"
  | .ops => "ops"
  | .comparators => "comparators"
  | .func => "func"
  | .conversion => "conversion"
  | .format_spec => "format_spec"
  | .kind => "kind"
  | .attr => "attr"
  | .ctx => "ctx"
  | .slice => "slice"
  | .id => "id"
  | .elts => "elts"
  | .lower => "lower"
  | .upper => "upper"
  | .step => "step"
  | .ifs => "ifs"
  | .is_async => "is_async"
  | .type_ => "type"
  | .posonlyargs => "posonlyargs"
  | .vararg => "vararg"
  | .kwonlyargs => "kwonlyargs"
  | .kw_defaults => "kw_defaults"
  | .kwarg => "kwarg"
  | .defaults => "defaults"
  | .arg => "arg"
  | .asname => "asname"
  | .context_expr => "context_expr"
  | .optional_vars => "optional_vars"
  | .pattern => "pattern"
  | .guard => "guard"
  | .patterns => "patterns"
  | .rest => "rest"
  | .cls => "cls"
  | .kwd_attrs => "kwd_attrs"
  | .kwd_patterns => "kwd_patterns"
  | .lineno => "lineno"
  | .tag => "tag"
  | .bound => "bound"
  | .argtypes => "argtypes"
  | .syntax_ => "syntax"
  | .filename => "filename"

def F.all : _root_.List F :=
  [.body, .type_ignores, .name, .args, .decorator_list, .returns, .type_comment, .type_params, .bases, .keywords,
    .value, .targets, .target, .op, .annotation, .simple, .iter, .orelse, .test, .items, .subject, .cases, .exc,
    .cause, .handlers, .finalbody, .msg, .names, .module_, .level, .values, .left, .right, .operand, .keys, .elt,
    .generators, .key, .ops, .comparators, .func, .conversion, .format_spec, .kind, .attr, .ctx, .slice, .id,
    .elts, .lower, .upper, .step, .ifs, .is_async, .type_, .posonlyargs, .vararg, .kwonlyargs, .kw_defaults,
    .kwarg, .defaults, .arg, .asname, .context_expr, .optional_vars, .pattern, .guard, .patterns, .rest, .cls,
    .kwd_attrs, .kwd_patterns, .lineno, .tag, .bound, .argtypes, .syntax_, .filename]

/-- The field with this name. -/
def F.ofText (s : String) : Option F := F.all.find? fun f => f.text == s

/-- `_fields`. -/
def K.fields : K → _root_.List F
  | .Module => [.body, .type_ignores]
  | .Interactive => [.body]
  | .Expression => [.body]
  | .FunctionType => [.argtypes, .returns]
  | .FunctionDef => [.name, .args, .body, .decorator_list, .returns, .type_comment, .type_params]
  | .AsyncFunctionDef => [.name, .args, .body, .decorator_list, .returns, .type_comment, .type_params]
  | .ClassDef => [.name, .bases, .keywords, .body, .decorator_list, .type_params]
  | .Return => [.value]
  | .Delete => [.targets]
  | .Assign => [.targets, .value, .type_comment]
  | .TypeAlias => [.name, .type_params, .value]
  | .AugAssign => [.target, .op, .value]
  | .AnnAssign => [.target, .annotation, .value, .simple]
  | .For => [.target, .iter, .body, .orelse, .type_comment]
  | .AsyncFor => [.target, .iter, .body, .orelse, .type_comment]
  | .While => [.test, .body, .orelse]
  | .If => [.test, .body, .orelse]
  | .With => [.items, .body, .type_comment]
  | .AsyncWith => [.items, .body, .type_comment]
  | .Match => [.subject, .cases]
  | .Raise => [.exc, .cause]
  | .Try => [.body, .handlers, .orelse, .finalbody]
  | .TryStar => [.body, .handlers, .orelse, .finalbody]
  | .Assert => [.test, .msg]
  | .Import => [.names]
  | .ImportFrom => [.module_, .names, .level]
  | .Global => [.names]
  | .Nonlocal => [.names]
  | .Expr => [.value]
  | .BoolOp => [.op, .values]
  | .NamedExpr => [.target, .value]
  | .BinOp => [.left, .op, .right]
  | .UnaryOp => [.op, .operand]
  | .Lambda => [.args, .body]
  | .IfExp => [.test, .body, .orelse]
  | .Dict => [.keys, .values]
  | .Set => [.elts]
  | .ListComp => [.elt, .generators]
  | .SetComp => [.elt, .generators]
  | .DictComp => [.key, .value, .generators]
  | .GeneratorExp => [.elt, .generators]
  | .Await => [.value]
  | .Yield => [.value]
  | .YieldFrom => [.value]
  | .Compare => [.left, .ops, .comparators]
  | .Call => [.func, .args, .keywords]
  | .FormattedValue => [.value, .conversion, .format_spec]
  | .JoinedStr => [.values]
  | .Constant => [.value, .kind]
  | .Attribute => [.value, .attr, .ctx]
  | .Subscript => [.value, .slice, .ctx]
  | .Starred => [.value, .ctx]
  | .Name => [.id, .ctx]
  | .List => [.elts, .ctx]
  | .Tuple => [.elts, .ctx]
  | .Slice => [.lower, .upper, .step]
  | .comprehension => [.target, .iter, .ifs, .is_async]
  | .ExceptHandler => [.type_, .name, .body]
  | .arguments => [.posonlyargs, .args, .vararg, .kwonlyargs, .kw_defaults, .kwarg, .defaults]
  | .arg => [.arg, .annotation, .type_comment]
  | .keyword => [.arg, .value]
  | .alias => [.name, .asname]
  | .withitem => [.context_expr, .optional_vars]
  | .match_case => [.pattern, .guard, .body]
  | .MatchValue => [.value]
  | .MatchSingleton => [.value]
  | .MatchSequence => [.patterns]
  | .MatchMapping => [.keys, .patterns, .rest]
  | .MatchClass => [.cls, .patterns, .kwd_attrs, .kwd_patterns]
  | .MatchStar => [.name]
  | .MatchAs => [.pattern, .name]
  | .MatchOr => [.patterns]
  | .TypeIgnore => [.lineno, .tag]
  | .TypeVar => [.name, .bound]
  | .ParamSpec => [.name]
  | .TypeVarTuple => [.name]
  | _ => []

/-- The optional fields (`?` in the grammar): when not set, they read as `None` (a class attribute). -/
def K.isOptional : K → F → Bool
  | .FunctionDef, .returns => true
  | .FunctionDef, .type_comment => true
  | .AsyncFunctionDef, .returns => true
  | .AsyncFunctionDef, .type_comment => true
  | .Return, .value => true
  | .Assign, .type_comment => true
  | .AnnAssign, .value => true
  | .For, .type_comment => true
  | .AsyncFor, .type_comment => true
  | .With, .type_comment => true
  | .AsyncWith, .type_comment => true
  | .Raise, .exc => true
  | .Raise, .cause => true
  | .Assert, .msg => true
  | .ImportFrom, .module_ => true
  | .ImportFrom, .level => true
  | .Yield, .value => true
  | .FormattedValue, .format_spec => true
  | .Constant, .kind => true
  | .Slice, .lower => true
  | .Slice, .upper => true
  | .Slice, .step => true
  | .ExceptHandler, .type_ => true
  | .ExceptHandler, .name => true
  | .arguments, .vararg => true
  | .arguments, .kwarg => true
  | .arg, .annotation => true
  | .arg, .type_comment => true
  | .keyword, .arg => true
  | .alias, .asname => true
  | .withitem, .optional_vars => true
  | .match_case, .guard => true
  | .MatchMapping, .rest => true
  | .MatchStar, .name => true
  | .MatchAs, .pattern => true
  | .MatchAs, .name => true
  | .TypeVar, .bound => true
  | _, _ => false

end Mcpyrate.Py
