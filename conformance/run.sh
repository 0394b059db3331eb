#!/bin/sh
# Usage, from ../lean: sh ../conformance/run.sh [folder of the repository]
repo=${1:-/repo}
here=$(dirname "$0")
out=$(mktemp -d)
python3 "$here/gotests.py" "$repo" "$out/UnitTests.lean"
lake env lean --run "$out/UnitTests.lean"
: > "$out/empty"
cp "$here/Article.lean.txt" "$out/Article.lean"
for t in bold-italic headings images references table generic real-article-Erde real-article-Sonne real-article-Schwarzes_Loch; do
  answers="$out/empty"
  [ -f "$here/$t.templates" ] && answers="$here/$t.templates"
  lake env lean --run "$out/Article.lean" "$repo/integration-tests" "$t" "$answers" "$out/$t.html"
  echo "== $t"
  python3 "$here/compare.py" "$repo/integration-tests/test-$t.html" "$out/$t.html"
done
