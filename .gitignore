.lake/
build/
*.olean
*.ilean
lake-manifest.json
